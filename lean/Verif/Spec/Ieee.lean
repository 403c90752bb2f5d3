import Verif.Base.BX
import Verif.Spec.Nearest

/-!
# IEEE binary formats

Rounding to nearest (ties away from zero) with `p + 1` binary digits, smallest normal number `2 ^ emin`, gradual underflow, and exponents up
to `emax`: `p = 52`, `emin = -1022`, `emax = 1023` for double and `p = 23`, `emin = -126`, `emax = 127` for single precision. It differs
from the IEEE default only for ties, which are not to even here; no theorem depends on ties.
-/

namespace Verif

/-- Rounding without an upper limit: multiples of `2 ^ (emin - p)` below `2 ^ emin`, numbers with `p + 1` digits above. -/
noncomputable def gradual (p : ℕ) (emin : ℤ) (x : ℝ) : ℝ := by
  classical
  exact if |x| < 2 ^ emin then round (x / 2 ^ (emin - p)) * 2 ^ (emin - p) else nearest p x

theorem nearest_err (p : ℕ) (x : ℝ) : |nearest p x - x| ≤ (1 / 2) ^ (p + 1) * |x| :=
  (nearestRounding p ⟨fun _ x => x, fun x _ => x, fun x _ => x⟩).err x

theorem nearest_mono (p : ℕ) {x y : ℝ} (h : x ≤ y) : nearest p x ≤ nearest p y :=
  (nearestRounding p ⟨fun _ x => x, fun x _ => x, fun x _ => x⟩).mono h

theorem nearest_pow (p : ℕ) (L : ℤ) : nearest p (2 ^ L) = 2 ^ L := by
  rw [nearest_of p le_rfl (zpow_lt_zpow_right₀ (by norm_num) (by omega))]
  have h : (2 : ℝ) ^ L / 2 ^ (L - p) = ((2 ^ p : ℕ) : ℝ) := by
    rw [← zpow_sub₀ (by norm_num)]
    push_cast
    rw [← zpow_natCast]
    congr 1
    omega
  rw [h, round_natCast]
  push_cast
  rw [← zpow_natCast, ← zpow_add₀ (by norm_num)]
  congr 1
  omega

theorem sub_err (p : ℕ) (emin : ℤ) (x : ℝ) :
    |round (x / 2 ^ (emin - p)) * 2 ^ (emin - p) - x| ≤ (2 : ℝ) ^ (emin - p - 1) := by
  have hq : (0 : ℝ) < 2 ^ (emin - p) := zpow_pos (by norm_num) _
  have h1 := abs_sub_round (x / (2 : ℝ) ^ (emin - p))
  have e : round (x / (2 : ℝ) ^ (emin - p)) * (2 : ℝ) ^ (emin - p) - x =
      -((x / 2 ^ (emin - p) - round (x / (2 : ℝ) ^ (emin - p))) * 2 ^ (emin - p)) := by
    field_simp
    ring
  rw [e, abs_neg, abs_mul, abs_of_pos hq, zpow_sub_one₀ (by norm_num)]
  nlinarith

theorem gradual_err (p : ℕ) (emin : ℤ) (x : ℝ) : |gradual p emin x - x| ≤ (1 / 2) ^ (p + 1) * |x| + 2 ^ (emin - p - 1) := by
  have h0 : (0 : ℝ) < 2 ^ (emin - p - 1) := zpow_pos (by norm_num) _
  unfold gradual
  split_ifs with h
  · have := sub_err p emin x
    have : (0 : ℝ) ≤ (1 / 2) ^ (p + 1) * |x| := by positivity
    linarith
  · have := nearest_err p x
    linarith

theorem pow_emin (p : ℕ) (emin : ℤ) : (2 : ℝ) ^ emin / 2 ^ (emin - p) = ((2 ^ p : ℕ) : ℝ) := by
  rw [← zpow_sub₀ (by norm_num)]
  push_cast
  rw [← zpow_natCast]
  congr 1
  omega

/-- Subnormal results do not exceed the smallest normal number. -/
theorem sub_le (p : ℕ) (emin : ℤ) {x : ℝ} (h : x ≤ 2 ^ emin) : round (x / 2 ^ (emin - p)) * (2 : ℝ) ^ (emin - p) ≤ 2 ^ emin := by
  have hq : (0 : ℝ) < 2 ^ (emin - p) := zpow_pos (by norm_num) _
  have h1 : x / 2 ^ (emin - p) ≤ ((2 ^ p : ℕ) : ℝ) := by
    rw [← pow_emin p emin]
    exact div_le_div_of_nonneg_right h hq.le
  have h2 := round_mono h1
  rw [round_natCast] at h2
  have h3 : ((round (x / (2 : ℝ) ^ (emin - p)) : ℤ) : ℝ) ≤ (2 : ℝ) ^ emin / 2 ^ (emin - p) := by
    rw [pow_emin]
    exact_mod_cast h2
  rwa [le_div_iff₀ hq] at h3

theorem le_sub (p : ℕ) (emin : ℤ) {x : ℝ} (h : -2 ^ emin ≤ x) : -(2 : ℝ) ^ emin ≤ round (x / 2 ^ (emin - p)) * (2 : ℝ) ^ (emin - p) := by
  have hq : (0 : ℝ) < 2 ^ (emin - p) := zpow_pos (by norm_num) _
  have h1 : ((-(2 ^ p : ℕ) : ℤ) : ℝ) ≤ x / 2 ^ (emin - p) := by
    push_cast
    have := pow_emin p emin
    push_cast at this
    rw [← this, ← neg_div]
    exact div_le_div_of_nonneg_right h hq.le
  have h2 := round_mono h1
  rw [round_intCast] at h2
  have h3 : -((2 : ℝ) ^ emin / 2 ^ (emin - p)) ≤ ((round (x / (2 : ℝ) ^ (emin - p)) : ℤ) : ℝ) := by
    rw [pow_emin]
    exact_mod_cast h2
  rwa [← neg_div, div_le_iff₀ hq] at h3

theorem gradual_mono (p : ℕ) (emin : ℤ) {x y : ℝ} (h : x ≤ y) : gradual p emin x ≤ gradual p emin y := by
  have hq : (0 : ℝ) < 2 ^ (emin - p) := zpow_pos (by norm_num) _
  unfold gradual
  by_cases hx : |x| < 2 ^ emin <;> by_cases hy : |y| < 2 ^ emin
  · rw [if_pos hx, if_pos hy]
    refine mul_le_mul_of_nonneg_right ?_ hq.le
    exact_mod_cast round_mono (div_le_div_of_nonneg_right h hq.le)
  · rw [if_pos hx, if_neg hy]
    rw [abs_lt] at hx
    rw [not_lt, le_abs] at hy
    refine (sub_le p emin hx.2.le).trans ?_
    rw [← nearest_pow p emin]
    refine nearest_mono p ?_
    rcases hy with hy | hy
    · exact hy
    · linarith [hx.1]
  · rw [if_neg hx, if_pos hy]
    rw [abs_lt] at hy
    rw [not_lt, le_abs] at hx
    refine le_trans ?_ (le_sub p emin hy.1.le)
    rw [← nearest_pow p emin, ← nearest_neg]
    refine nearest_mono p ?_
    rcases hx with hx | hx
    · linarith [hy.2]
    · linarith
  · rw [if_neg hx, if_neg hy]
    exact nearest_mono p h

theorem gradual_neg_one (p : ℕ) (emin : ℤ) {x : ℝ} (h : |x| < 2 ^ (emin - p - 1)) : gradual p emin x = 0 := by
  have hq : (0 : ℝ) < 2 ^ (emin - p) := zpow_pos (by norm_num) _
  have h1 : (2 : ℝ) ^ (emin - p - 1) = 2 ^ (emin - p) / 2 := by rw [zpow_sub_one₀ (by norm_num)]; ring
  rw [h1] at h
  have h2 : (2 : ℝ) ^ (emin - p) ≤ 2 ^ emin := zpow_le_zpow_right₀ (by norm_num) (by omega)
  unfold gradual
  rw [if_pos (by linarith)]
  have h3 : |x / (2 : ℝ) ^ (emin - p)| < 1 / 2 := by
    rw [abs_div, abs_of_pos hq, div_lt_iff₀ hq]
    linarith
  rw [abs_lt] at h3
  have h4 : round (x / (2 : ℝ) ^ (emin - p)) = 0 := by
    rw [round_eq, Int.floor_eq_iff]
    push_cast
    constructor <;> linarith [h3.1, h3.2]
  rw [h4]
  simp

/-- The largest number. -/
noncomputable def ieeeTop (p : ℕ) (emax : ℤ) : ℝ := (2 - (1 / 2) ^ p) * 2 ^ emax

theorem ieeeTop_bounds (p : ℕ) (emax : ℤ) : (2 : ℝ) ^ emax ≤ ieeeTop p emax ∧ ieeeTop p emax < 2 ^ (emax + 1) := by
  have h0 : (0 : ℝ) < 2 ^ emax := zpow_pos (by norm_num) _
  have h1 : (1 / 2 : ℝ) ^ p ≤ 1 := pow_le_one₀ (by norm_num) (by norm_num)
  have h2 : (0 : ℝ) < (1 / 2) ^ p := by positivity
  unfold ieeeTop
  rw [zpow_add_one₀ (by norm_num)]
  constructor <;> nlinarith

theorem nearest_top (p : ℕ) (emax : ℤ) : nearest p (ieeeTop p emax) = ieeeTop p emax := by
  obtain ⟨h1, h2⟩ := ieeeTop_bounds p emax
  rw [nearest_of p h1 h2]
  have hp : (1 / 2 : ℝ) ^ p = (2 : ℝ) ^ (-(p : ℤ)) := by rw [zpow_neg, zpow_natCast, one_div, inv_pow]
  have e : ieeeTop p emax / 2 ^ (emax - p) = (((2 ^ (p + 1) - 1 : ℕ) : ℤ) : ℝ) := by
    have h3 : ((2 ^ (p + 1) - 1 : ℕ) : ℝ) = 2 * 2 ^ p - 1 := by
      rw [Nat.cast_sub Nat.one_le_two_pow]
      push_cast
      ring
    rw [Int.cast_natCast, h3, ieeeTop, mul_div_assoc, pow_emin, hp, zpow_neg, zpow_natCast]
    push_cast
    field_simp
  rw [e, round_intCast, ← e]
  field_simp

open scoped Classical in
/-- Rounding in an IEEE format. -/
noncomputable def ieeeRnd (p : ℕ) (emin emax : ℤ) (x : ℝ) : XR :=
  if 2 ^ (emax + 1) ≤ gradual p emin x then XR.pinf else if gradual p emin x ≤ -2 ^ (emax + 1) then XR.ninf else XR.fin (gradual p emin x)

theorem gradual_big (p : ℕ) {emin L : ℤ} (h : emin ≤ L) : gradual p emin (2 ^ L) = 2 ^ L ∧ gradual p emin (-2 ^ L) = -2 ^ L := by
  have h0 : (0 : ℝ) < 2 ^ L := zpow_pos (by norm_num) _
  have h1 : (2 : ℝ) ^ emin ≤ 2 ^ L := zpow_le_zpow_right₀ (by norm_num) h
  unfold gradual
  rw [if_neg (by rw [abs_of_pos h0]; linarith), if_neg (by rw [abs_neg, abs_of_pos h0]; linarith), nearest_neg, nearest_pow]
  exact ⟨rfl, rfl⟩

theorem gradual_top (p : ℕ) {emin emax : ℤ} (h : emin ≤ emax) :
    gradual p emin (ieeeTop p emax) = ieeeTop p emax ∧ gradual p emin (-ieeeTop p emax) = -ieeeTop p emax := by
  obtain ⟨h1, h2⟩ := ieeeTop_bounds p emax
  have h0 : (0 : ℝ) < 2 ^ emax := zpow_pos (by norm_num) _
  have h3 : (2 : ℝ) ^ emin ≤ 2 ^ emax := zpow_le_zpow_right₀ (by norm_num) h
  unfold gradual
  rw [if_neg (by rw [abs_of_pos (by linarith)]; linarith), if_neg (by rw [abs_neg, abs_of_pos (by linarith)]; linarith), nearest_neg,
    nearest_top]
  exact ⟨rfl, rfl⟩

theorem gradual_idem (p : ℕ) (emin : ℤ) (x : ℝ) : gradual p emin (gradual p emin x) = gradual p emin x := by
  have hq : (0 : ℝ) < 2 ^ (emin - p) := zpow_pos (by norm_num) _
  by_cases hx : |x| < 2 ^ emin
  · have e : gradual p emin x = round (x / 2 ^ (emin - p)) * 2 ^ (emin - p) := by unfold gradual; rw [if_pos hx]
    rw [abs_lt] at hx
    have h1 := sub_le p emin hx.2.le
    have h2 := le_sub p emin hx.1.le
    rw [← e] at h1 h2
    rcases h1.eq_or_lt with h | h
    · rw [h]
      exact (gradual_big p le_rfl).1
    · rcases h2.eq_or_lt with h' | h'
      · rw [← h']
        exact (gradual_big p le_rfl).2
      · rw [e] at h h' ⊢
        rw [gradual, if_pos (abs_lt.2 ⟨h', h⟩), mul_div_assoc, div_self hq.ne', mul_one, round_intCast]
  · have e : gradual p emin x = nearest p x := by unfold gradual; rw [if_neg hx]
    rw [e]
    have h1 : ¬ |nearest p x| < 2 ^ emin := by
      rw [not_lt, le_abs] at hx ⊢
      rcases hx with hx | hx
      · left
        rw [← nearest_pow p emin]
        exact nearest_mono p hx
      · right
        rw [← nearest_neg, ← nearest_pow p emin]
        exact nearest_mono p hx
    rw [gradual, if_neg h1]
    exact (nearestRounding p ⟨fun _ x => x, fun x _ => x, fun x _ => x⟩).idem x

theorem gradual_zero (p : ℕ) (emin : ℤ) : gradual p emin 0 = 0 :=
  gradual_neg_one p emin (by rw [abs_zero]; exact zpow_pos (by norm_num) _)

theorem ieeeRnd_fin {p : ℕ} {emin emax : ℤ} {x r : ℝ} (h : ieeeRnd p emin emax x = XR.fin r) : r = gradual p emin x := by
  unfold ieeeRnd at h
  split_ifs at h
  simpa using h.symm

/-- An IEEE format with `p + 1` binary digits and exponents from `emin` to `emax`. -/
noncomputable def ieee (p : ℕ) (emin emax : ℤ) (h0 : emin ≤ 0) (h1 : 0 ≤ emax) (lib : Libm) : Format where
  rnd := ieeeRnd p emin emax
  u := (1 / 2) ^ (p + 1)
  tiny := 2 ^ (emin - p - 1)
  top := ieeeTop p emax
  over := 2 ^ (emax + 1)
  u_nonneg := by positivity
  u_lt := lt_of_le_of_lt (pow_le_of_le_one (by norm_num) (by norm_num) (by omega)) (by norm_num : (1 / 2 : ℝ) < 1)
  tiny_pos := zpow_pos (by norm_num) _
  one_le_top := le_trans (one_le_zpow₀ (by norm_num) h1) (ieeeTop_bounds p emax).1
  top_lt_over := (ieeeTop_bounds p emax).2
  fin_of := by
    intro x hx
    rw [abs_le] at hx
    have a := gradual_mono p emin hx.1
    have b := gradual_mono p emin hx.2
    rw [(gradual_top p (h0.trans h1)).2] at a
    rw [(gradual_top p (h0.trans h1)).1] at b
    have c := (ieeeTop_bounds p emax).2
    refine ⟨gradual p emin x, ?_, abs_le.2 ⟨a, b⟩⟩
    rw [ieeeRnd, if_neg (by linarith), if_neg (by linarith)]
  err := by
    intro x r h
    rw [ieeeRnd_fin h]
    exact gradual_err p emin x
  pinf_of := by
    intro x hx
    have := gradual_mono p emin hx
    rw [(gradual_big p (by omega : emin ≤ emax + 1)).1] at this
    rw [ieeeRnd, if_pos this]
  ninf_of := by
    intro x hx
    have := gradual_mono p emin hx
    rw [(gradual_big p (by omega : emin ≤ emax + 1)).2] at this
    have h2 : (0 : ℝ) < 2 ^ (emax + 1) := zpow_pos (by norm_num) _
    rw [ieeeRnd, if_neg (by linarith), if_pos this]
  zero_of := by
    intro x hx
    have h2 : (0 : ℝ) < 2 ^ (emax + 1) := zpow_pos (by norm_num) _
    rw [ieeeRnd, gradual_neg_one p emin hx, if_neg (by linarith), if_neg (by linarith)]
  mono := by
    intro x y a b hxy ha hb
    rw [ieeeRnd_fin ha, ieeeRnd_fin hb]
    exact gradual_mono p emin hxy
  not_nan := by
    intro x
    unfold ieeeRnd
    split_ifs <;> simp
  not_ninf := by
    intro x hx
    have := gradual_mono p emin hx
    rw [gradual_zero] at this
    have h2 : (0 : ℝ) < 2 ^ (emax + 1) := zpow_pos (by norm_num) _
    unfold ieeeRnd
    rw [if_neg (c := gradual p emin x ≤ _) (by linarith)]
    split_ifs <;> simp
  not_pinf := by
    intro x hx
    have := gradual_mono p emin hx
    rw [gradual_zero] at this
    have h2 : (0 : ℝ) < 2 ^ (emax + 1) := zpow_pos (by norm_num) _
    unfold ieeeRnd
    rw [if_neg (by linarith)]
    split_ifs <;> simp
  one := by
    have e := (gradual_big p h0).1
    rw [zpow_zero] at e
    have h2 : (1 : ℝ) < 2 ^ (emax + 1) := one_lt_zpow₀ (by norm_num) (by omega)
    rw [ieeeRnd, e, if_neg (by linarith), if_neg (by linarith)]
  rnd_top := by
    have c := (ieeeTop_bounds p emax).2
    have d := (ieeeTop_bounds p emax).1
    have h2 : (0 : ℝ) < 2 ^ emax := zpow_pos (by norm_num) _
    rw [ieeeRnd, (gradual_top p (h0.trans h1)).1, if_neg (by linarith), if_neg (by linarith)]
  idem := by
    intro x r h
    have e := ieeeRnd_fin h
    have e2 := gradual_idem p emin x
    rw [← e] at e2
    unfold ieeeRnd at h ⊢
    rw [e2]
    rwa [← e] at h
  lib := lib

/-- Double precision. -/
noncomputable def double (lib : Libm) : Format := ieee 52 (-1022) 1023 (by norm_num) (by norm_num) lib

/-- Single precision. -/
noncomputable def single (lib : Libm) : Format := ieee 23 (-126) 127 (by norm_num) (by norm_num) lib

end Verif
