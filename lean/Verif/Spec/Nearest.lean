import Mathlib.Algebra.Order.Round
import Verif.Spec.Rounding

/-!
# Rounding to nearest

Rounding to the nearest number with `p + 1` binary digits, ties away from zero, is a `Rounding` with `u = 2⁻ᵖ⁻¹`: `p = 52` for double
and `p = 23` for single precision. It shows that the theorems about every `Rounding` speak of something.
-/

namespace Verif

/-- The distance of the numbers with `p + 1` digits around `x`. -/
noncomputable def ulp (p : ℕ) (x : ℝ) : ℝ := (2 : ℝ) ^ (Int.log 2 x - p)

/-- The nearest number with `p + 1` digits to a positive number. -/
noncomputable def nearPos (p : ℕ) (x : ℝ) : ℝ := round (x / ulp p x) * ulp p x

open scoped Classical in
/-- The nearest number with `p + 1` digits. -/
noncomputable def nearest (p : ℕ) (x : ℝ) : ℝ := if 0 < x then nearPos p x else if x < 0 then -nearPos p (-x) else 0

theorem ulp_pos (p : ℕ) (x : ℝ) : 0 < ulp p x := zpow_pos (by norm_num) _

theorem pow_mul_ulp (p : ℕ) (x : ℝ) : (2 : ℝ) ^ p * ulp p x = (2 : ℝ) ^ Int.log 2 x := by
  rw [ulp, ← zpow_natCast, ← zpow_add₀ (by norm_num)]
  congr 1
  ring

theorem log_le (x : ℝ) (h : 0 < x) : (2 : ℝ) ^ Int.log 2 x ≤ x := by
  have := Int.zpow_log_le_self (b := 2) (by norm_num) h
  simpa using this

theorem lt_log (x : ℝ) : x < 2 * (2 : ℝ) ^ Int.log 2 x := by
  have := Int.lt_zpow_succ_log_self (b := 2) (by norm_num) x
  rw [zpow_add_one₀ (by norm_num)] at this
  simpa [mul_comm] using this

theorem round_mono {x y : ℝ} (h : x ≤ y) : round x ≤ round y := by
  rw [round_eq, round_eq]
  exact Int.floor_mono (by linarith)

theorem nearPos_lower (p : ℕ) {x : ℝ} (h : 0 < x) : (2 : ℝ) ^ Int.log 2 x ≤ nearPos p x := by
  have hu := ulp_pos p x
  rw [← pow_mul_ulp p, nearPos]
  refine mul_le_mul_of_nonneg_right ?_ hu.le
  have h1 : (2 : ℝ) ^ p ≤ x / ulp p x := by
    rw [le_div_iff₀ hu, pow_mul_ulp]
    exact log_le x h
  have h2 := round_mono h1
  have h3 : round ((2 : ℝ) ^ p) = 2 ^ p := by
    have := round_natCast (α := ℝ) (2 ^ p)
    push_cast at this
    exact this
  rw [h3] at h2
  exact_mod_cast h2

theorem nearPos_upper (p : ℕ) {x : ℝ} : nearPos p x ≤ 2 * (2 : ℝ) ^ Int.log 2 x := by
  have hu := ulp_pos p x
  rw [← pow_mul_ulp p, nearPos, ← mul_assoc]
  refine mul_le_mul_of_nonneg_right ?_ hu.le
  have h1 : x / ulp p x ≤ 2 * (2 : ℝ) ^ p := by
    rw [div_le_iff₀ hu, mul_assoc, pow_mul_ulp]
    exact (lt_log x).le
  have h2 := round_mono h1
  have h3 : round (2 * (2 : ℝ) ^ p) = 2 * 2 ^ p := by
    have := round_natCast (α := ℝ) (2 * 2 ^ p)
    push_cast at this
    exact this
  rw [h3] at h2
  exact_mod_cast h2

theorem nearPos_err (p : ℕ) {x : ℝ} (h : 0 < x) : |nearPos p x - x| ≤ (1 / 2) ^ (p + 1) * x := by
  have hu := ulp_pos p x
  have h1 := abs_sub_round (x / ulp p x)
  have e : nearPos p x - x = -((x / ulp p x - round (x / ulp p x)) * ulp p x) := by
    rw [nearPos]
    field_simp
    ring
  rw [e, abs_neg, abs_mul, abs_of_pos hu]
  have h2 : (2 : ℝ) ^ p * ulp p x ≤ x := by
    rw [pow_mul_ulp]
    exact log_le x h
  have h3 : (1 / 2 : ℝ) ^ (p + 1) * x ≥ (1 / 2) ^ (p + 1) * (2 ^ p * ulp p x) := mul_le_mul_of_nonneg_left h2 (by positivity)
  have h4 : (1 / 2 : ℝ) ^ (p + 1) * (2 ^ p * ulp p x) = 1 / 2 * ulp p x := by
    rw [pow_succ, ← mul_assoc, mul_comm ((1 / 2 : ℝ) ^ p), mul_assoc (1 / 2 : ℝ), ← mul_pow]
    norm_num
  nlinarith

theorem nearPos_mono (p : ℕ) {x y : ℝ} (h : 0 < x) (hxy : x ≤ y) : nearPos p x ≤ nearPos p y := by
  have hy := h.trans_le hxy
  have hl : Int.log 2 x ≤ Int.log 2 y := Int.log_mono_right h hxy
  rcases hl.eq_or_lt with e | e
  · have eu : ulp p x = ulp p y := by rw [ulp, ulp, e]
    rw [nearPos, nearPos, eu]
    refine mul_le_mul_of_nonneg_right ?_ (ulp_pos p y).le
    exact_mod_cast round_mono (div_le_div_of_nonneg_right hxy (ulp_pos p y).le)
  · refine (nearPos_upper p).trans (le_trans ?_ (nearPos_lower p hy))
    rw [mul_comm, ← zpow_add_one₀ (by norm_num)]
    exact zpow_le_zpow_right₀ (by norm_num) e

theorem nearPos_idem (p : ℕ) {x : ℝ} (h : 0 < x) : nearPos p (nearPos p x) = nearPos p x := by
  set z := nearPos p x with hz
  have hlow := nearPos_lower p h
  have hup := nearPos_upper p (x := x)
  rw [← hz] at hlow hup
  have hzp : 0 < z := (zpow_pos (by norm_num) _).trans_le hlow
  rcases hup.eq_or_lt with e | e
  · have hl : Int.log 2 z = Int.log 2 x + 1 := by
      have : z = ((2 : ℕ) : ℝ) ^ (Int.log 2 x + 1) := by
        rw [e, zpow_add_one₀ (by norm_num)]
        push_cast
        ring
      rw [this, Int.log_zpow (by norm_num)]
    have hq : z = 2 ^ p * ulp p z := by
      rw [pow_mul_ulp, hl, zpow_add_one₀ (by norm_num), e]
      ring
    have hr : z / ulp p z = ((2 ^ p : ℕ) : ℝ) := by
      rw [div_eq_iff (ulp_pos p z).ne']
      push_cast
      exact hq
    rw [nearPos, hr, round_natCast]
    push_cast
    exact hq.symm
  · have hl : Int.log 2 z = Int.log 2 x := by
      apply le_antisymm
      · by_contra hc
        push Not at hc
        have h2 := log_le z hzp
        have h3 : (2 : ℝ) ^ (Int.log 2 x + 1) ≤ 2 ^ Int.log 2 z := zpow_le_zpow_right₀ (by norm_num) hc
        rw [zpow_add_one₀ (by norm_num)] at h3
        linarith
      · have : (2 : ℝ) ^ Int.log 2 x = ((2 : ℕ) : ℝ) ^ Int.log 2 x := by norm_num
        rw [← Int.log_zpow (R := ℝ) (b := 2) (by norm_num) (Int.log 2 x), ← this]
        exact Int.log_mono_right (zpow_pos (by norm_num) _) hlow
    have eu : ulp p z = ulp p x := by rw [ulp, ulp, hl]
    have hr : z / ulp p z = ((round (x / ulp p x) : ℤ) : ℝ) := by
      rw [eu, div_eq_iff (ulp_pos p x).ne']
      rfl
    rw [nearPos, hr, round_intCast, eu]
    rfl

theorem nearPos_pos (p : ℕ) {x : ℝ} (h : 0 < x) : 0 < nearPos p x := (zpow_pos (by norm_num) _).trans_le (nearPos_lower p h)

theorem log_eq {x : ℝ} {L : ℤ} (h1 : (2 : ℝ) ^ L ≤ x) (h2 : x < 2 ^ (L + 1)) : Int.log 2 x = L := by
  have hx : 0 < x := (zpow_pos (by norm_num) _).trans_le h1
  have a : L ≤ Int.log 2 x := by
    rw [← Int.zpow_le_iff_le_log (by norm_num) hx]
    simpa using h1
  have b : Int.log 2 x < L + 1 := by
    rw [← Int.lt_zpow_iff_log_lt (by norm_num) hx]
    simpa using h2
  omega

/-- Rounding of a number whose size is known. -/
theorem nearest_of (p : ℕ) {x : ℝ} {L : ℤ} (h1 : (2 : ℝ) ^ L ≤ x) (h2 : x < 2 ^ (L + 1)) :
    nearest p x = round (x / 2 ^ (L - p)) * 2 ^ (L - p) := by
  have hx : 0 < x := (zpow_pos (by norm_num) _).trans_le h1
  rw [nearest, if_pos hx, nearPos, ulp, log_eq h1 h2]

theorem nearest_zero (p : ℕ) : nearest p 0 = 0 := by simp [nearest]

theorem nearest_neg (p : ℕ) (x : ℝ) : nearest p (-x) = -nearest p x := by
  unfold nearest
  rcases lt_trichotomy x 0 with h | h | h
  · rw [if_pos (by linarith), if_neg (by linarith), if_pos h, neg_neg]
  · simp [h]
  · rw [if_neg (by linarith), if_pos (by linarith), if_pos h, neg_neg]

/-- Natural numbers with at most `p + 1` digits are not changed. -/
theorem nearest_nat (p m : ℕ) (h : m < 2 ^ (p + 1)) : nearest p m = m := by
  rcases Nat.eq_zero_or_pos m with rfl | hm
  · simp [nearest_zero]
  have hm' : (0 : ℝ) < m := by exact_mod_cast hm
  have hlog : Int.log 2 (m : ℝ) = Nat.log 2 m := Int.log_natCast 2 m
  have hle : Nat.log 2 m ≤ p := by
    have := Nat.log_lt_of_lt_pow hm.ne' h
    omega
  have hu : ulp p (m : ℝ) = (2 ^ (p - Nat.log 2 m) : ℝ)⁻¹ := by
    rw [ulp, hlog, ← zpow_natCast, ← zpow_neg]
    congr 1
    omega
  have hq : (m : ℝ) / ulp p m = ((m * 2 ^ (p - Nat.log 2 m) : ℕ) : ℝ) := by
    rw [hu]
    push_cast
    field_simp
  rw [nearest, if_pos hm', nearPos, hq, round_natCast, hu]
  push_cast
  field_simp

/-- Rounding to nearest with `p + 1` binary digits. -/
noncomputable def nearestRounding (p : ℕ) (lib : Libm) : Rounding where
  rnd := nearest p
  u := (1 / 2) ^ (p + 1)
  u_nonneg := by positivity
  u_lt := by
    refine lt_of_le_of_lt (pow_le_of_le_one (by norm_num) (by norm_num) (by omega)) (by norm_num : (1 / 2 : ℝ) < 1)
  err := by
    intro x
    unfold nearest
    split_ifs with h1 h2
    · rw [abs_of_pos h1]
      exact nearPos_err p h1
    · rw [abs_of_neg h2, show -nearPos p (-x) - x = -(nearPos p (-x) - -x) by ring, abs_neg]
      exact nearPos_err p (by linarith)
    · have : x = 0 := by linarith
      simp [this]
  mono := by
    intro x y hxy
    unfold nearest
    split_ifs with h1 h2 h3 h4 h5 h6 h7
    · exact nearPos_mono p h1 hxy
    · linarith
    · linarith
    · linarith [nearPos_pos p (show 0 < -x by linarith), nearPos_pos p h5]
    · linarith [nearPos_mono p (show 0 < -y by linarith) (show -y ≤ -x by linarith)]
    · linarith [nearPos_pos p (show 0 < -x by linarith)]
    all_goals first | exact (nearPos_pos p (by assumption)).le | linarith
  idem := by
    intro x
    unfold nearest
    by_cases h1 : 0 < x
    · simp only [if_pos h1]
      rw [if_pos (nearPos_pos p h1), nearPos_idem p h1]
    · by_cases h2 : x < 0
      · have := nearPos_pos p (show 0 < -x by linarith)
        simp only [if_neg h1, if_pos h2]
        rw [if_neg (by linarith), if_pos (by linarith), neg_neg, nearPos_idem p (by linarith)]
      · simp [h1, h2]
  one := by
    have := nearest_nat p 1 (Nat.one_lt_two_pow (by omega))
    simpa using this
  neg_one := by
    have := nearest_nat p 1 (Nat.one_lt_two_pow (by omega))
    rw [nearest_neg]
    simpa using this
  lib := lib

/-- In single precision one third is rounded, so the error is not zero. -/
example (lib : Libm) : (nearestRounding 23 lib).rnd (1 / 3) ≠ 1 / 3 := by
  have hl : Int.log 2 (1 / 3 : ℝ) = -2 := by
    have h1 : (-2 : ℤ) ≤ Int.log 2 (1 / 3 : ℝ) := by
      rw [← Int.log_zpow (R := ℝ) (b := 2) (by norm_num) (-2)]
      exact Int.log_mono_right (by positivity) (by norm_num)
    have h2 : Int.log 2 (1 / 3 : ℝ) < -1 := by
      rw [← Int.lt_zpow_iff_log_lt (by norm_num) (by norm_num)]
      norm_num
    omega
  change nearest 23 (1 / 3) ≠ _
  rw [nearest, if_pos (by norm_num), nearPos, ulp, hl]
  intro h
  have h2 : (3 * round ((1 / 3 : ℝ) / 2 ^ ((-2 : ℤ) - (23 : ℕ))) : ℝ) = 2 ^ 25 := by
    have e : (2 : ℝ) ^ ((-2 : ℤ) - (23 : ℕ)) = 1 / 2 ^ 25 := by norm_num
    rw [e] at h ⊢
    field_simp at h ⊢
    linarith
  have h3 : 3 * round ((1 / 3 : ℝ) / 2 ^ ((-2 : ℤ) - (23 : ℕ))) = 2 ^ 25 := by exact_mod_cast h2
  omega

end Verif
