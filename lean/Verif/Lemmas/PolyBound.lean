import Mathlib.Analysis.Calculus.MeanValue
import Mathlib.Analysis.SpecialFunctions.Log.Deriv
import Mathlib.Analysis.SpecialFunctions.ExpDeriv
import Mathlib.Tactic.NormNum
import Mathlib.Tactic.Linarith
import Mathlib.Tactic.Positivity
import Mathlib.Tactic.FieldSimp

/-!
# Polynomials with rational coefficients, bounded on an interval by calculation

A polynomial is the list of its coefficients, lowest first. The operations below are computable, so that the kernel can evaluate a
bound; the lemmas say that the bound holds for all real arguments of the interval. They are used for the accuracy of the inverse error
function (C154).
-/

namespace Verif.PB

/-- The value of a polynomial. -/
noncomputable def pev : List ℚ → ℝ → ℝ
  | [], _ => 0
  | a :: p, v => a + v * pev p v

/-- Sum. -/
def padd : List ℚ → List ℚ → List ℚ
  | [], q => q
  | p, [] => p
  | a :: p, b :: q => (a + b) :: padd p q

/-- Multiple. -/
def psm (c : ℚ) : List ℚ → List ℚ
  | [] => []
  | a :: p => (c * a) :: psm c p

/-- Product. -/
def pmul : List ℚ → List ℚ → List ℚ
  | [], _ => []
  | a :: p, q => padd (psm a q) (0 :: pmul p q)

/-- Derivative. -/
def pder : List ℚ → List ℚ
  | [] => []
  | _ :: p => padd p (0 :: pder p)

/-- The polynomial in the distance from `c`. -/
def pshift (c : ℚ) : List ℚ → List ℚ
  | [] => []
  | a :: p => padd [a] (pmul [c, 1] (pshift c p))

/-- Bound of the absolute value on `[-h, h]`. -/
def pabs (h : ℚ) : List ℚ → ℚ
  | [] => 0
  | a :: p => |a| + h * pabs h p

/-- Lower bound on `[-h, h]`. -/
def plow (h : ℚ) : List ℚ → ℚ
  | [] => 0
  | a :: p => a - h * pabs h p

theorem pev_add (p q : List ℚ) (v : ℝ) : pev (padd p q) v = pev p v + pev q v := by
  induction p generalizing q with
  | nil => simp [padd, pev]
  | cons a p ih =>
    cases q with
    | nil => simp [padd, pev]
    | cons b q =>
      simp only [padd, pev, ih]
      push_cast
      ring

theorem pev_sm (c : ℚ) (p : List ℚ) (v : ℝ) : pev (psm c p) v = c * pev p v := by
  induction p with
  | nil => simp [psm, pev]
  | cons a p ih =>
    simp only [psm, pev, ih]
    push_cast
    ring

theorem pev_mul (p q : List ℚ) (v : ℝ) : pev (pmul p q) v = pev p v * pev q v := by
  induction p with
  | nil => simp [pmul, pev]
  | cons a p ih =>
    simp only [pmul, pev_add, pev_sm, pev, ih]
    push_cast
    ring

theorem pev_shift (c : ℚ) (p : List ℚ) (v : ℝ) : pev (pshift c p) v = pev p (c + v) := by
  induction p with
  | nil => simp [pshift, pev]
  | cons a p ih =>
    simp only [pshift, pev_add, pev_mul, pev, ih]
    push_cast
    ring

theorem pev_deriv (p : List ℚ) (v : ℝ) : HasDerivAt (pev p) (pev (pder p) v) v := by
  induction p with
  | nil => exact hasDerivAt_const v (0 : ℝ)
  | cons a p ih =>
    have h := ((hasDerivAt_id v).mul ih).const_add (a : ℝ)
    have e : 1 * pev p v + id v * pev (pder p) v = pev (pder (a :: p)) v := by
      simp only [pder, pev_add, pev, id]
      push_cast
      ring
    rw [e] at h
    exact h

theorem pabs_nonneg {h : ℚ} (hh : 0 ≤ h) (p : List ℚ) : 0 ≤ pabs h p := by
  induction p with
  | nil => exact le_rfl
  | cons a p ih => exact add_nonneg (abs_nonneg a) (mul_nonneg hh ih)

theorem abs_pev_le {h : ℚ} (p : List ℚ) {v : ℝ} (hv : |v| ≤ h) : |pev p v| ≤ pabs h p := by
  induction p with
  | nil => simp [pev, pabs]
  | cons a p ih =>
    simp only [pev, pabs]
    push_cast
    refine (abs_add_le _ _).trans (add_le_add le_rfl ?_)
    rw [abs_mul]
    exact mul_le_mul hv ih (abs_nonneg _) ((abs_nonneg v).trans hv)

theorem plow_le {h : ℚ} (p : List ℚ) {v : ℝ} (hv : |v| ≤ h) : (plow h p : ℝ) ≤ pev p v := by
  cases p with
  | nil => simp [pev, plow]
  | cons a p =>
    simp only [pev, plow]
    push_cast
    have h1 : |v * pev p v| ≤ h * pabs h p := by
      rw [abs_mul]
      exact mul_le_mul hv (abs_pev_le p hv) (abs_nonneg _) ((abs_nonneg v).trans hv)
    have := neg_abs_le (v * pev p v)
    linarith

/-- With no negative coefficient the value at a nonnegative argument is at least the constant term. -/
theorem pev_ge_of_nonneg (p : List ℚ) (h : ∀ a ∈ p, 0 ≤ a) {v : ℝ} (hv : 0 ≤ v) : 0 ≤ pev p v := by
  induction p with
  | nil => exact le_rfl
  | cons a p ih =>
    have h1 : (0 : ℝ) ≤ a := by exact_mod_cast h a (by simp)
    exact add_nonneg h1 (mul_nonneg hv (ih fun b hb => h b (by simp [hb])))

/-! ## The exponential function at multiples of 1/16 -/

/-- `exp (-1/16)` with an error below 1e-16. -/
def e16 : ℚ := 0.93941306281347578

theorem e16_err : |Real.exp (-(1 / 16)) - (e16 : ℝ)| ≤ 1e-16 := by
  have h := Real.exp_bound (x := -(1 / 16 : ℝ)) (by rw [abs_neg]; norm_num) (n := 11) (by norm_num)
  rw [abs_le] at h ⊢
  simp only [Finset.sum_range_succ, Finset.sum_range_zero, Nat.factorial, abs_neg] at h
  rw [abs_of_pos (by norm_num : (0 : ℝ) < 1 / 16)] at h
  norm_num [e16] at h ⊢
  constructor <;> linarith [h.1, h.2]

theorem abs_pow_sub_pow_le {a b : ℝ} (ha : |a| ≤ 1) (hb : |b| ≤ 1) (n : ℕ) : |a ^ n - b ^ n| ≤ n * |a - b| := by
  induction n with
  | zero => simp
  | succ n ih =>
    have e : a ^ (n + 1) - b ^ (n + 1) = a * (a ^ n - b ^ n) + (a - b) * b ^ n := by ring
    rw [e]
    refine (abs_add_le _ _).trans ?_
    rw [abs_mul, abs_mul, abs_pow]
    push_cast
    have h1 : |b| ^ n ≤ 1 := pow_le_one₀ (abs_nonneg b) hb
    have h2 := mul_le_mul ha ih (abs_nonneg _) zero_le_one
    have h3 := mul_le_mul_of_nonneg_left h1 (abs_nonneg (a - b))
    linarith

/-- `exp (-k/16)`, rounded. -/
def ek (k : ℕ) : ℚ := ((e16 ^ k * 10 ^ 14).floor : ℚ) / 10 ^ 14

theorem ek_err {k : ℕ} (hk : k ≤ 900) : |Real.exp (-(k / 16 : ℝ)) - (ek k : ℝ)| ≤ 1.5e-13 := by
  have h1 : Real.exp (-(k / 16 : ℝ)) = Real.exp (-(1 / 16)) ^ k := by
    rw [← Real.exp_nat_mul]
    congr 1
    ring
  have h2 := abs_pow_sub_pow_le (a := Real.exp (-(1 / 16))) (b := (e16 : ℝ)) (by
      rw [abs_of_pos (Real.exp_pos _)]; exact Real.exp_le_one_iff.2 (by norm_num)) (by norm_num [e16, abs_le]) k
  have h3 : (k : ℝ) * |Real.exp (-(1 / 16)) - (e16 : ℝ)| ≤ 900 * 1e-16 :=
    mul_le_mul (by exact_mod_cast hk) e16_err (abs_nonneg _) (by norm_num)
  have h4 : |((e16 : ℝ) ^ k) - (ek k : ℝ)| ≤ 1e-14 := by
    have f1 := Rat.floor_le (e16 ^ k * 10 ^ 14)
    have f2 := Rat.lt_floor_add_one (e16 ^ k * 10 ^ 14)
    have g1 : (((e16 ^ k * 10 ^ 14).floor : ℚ) : ℝ) ≤ (e16 : ℝ) ^ k * 10 ^ 14 := by exact_mod_cast f1
    have g2 : (e16 : ℝ) ^ k * 10 ^ 14 < (((e16 ^ k * 10 ^ 14).floor : ℚ) : ℝ) + 1 := by exact_mod_cast f2
    unfold ek
    push_cast at g1 g2 ⊢
    rw [abs_le]
    constructor
    · have : (((e16 ^ k * 10 ^ 14).floor : ℤ) : ℝ) / 10 ^ 14 ≤ (e16 : ℝ) ^ k := by rw [div_le_iff₀ (by norm_num)]; exact g1
      linarith
    · have : (e16 : ℝ) ^ k ≤ ((((e16 ^ k * 10 ^ 14).floor : ℤ) : ℝ) + 1) / 10 ^ 14 := by rw [le_div_iff₀ (by norm_num)]; exact g2.le
      rw [add_div] at this
      norm_num at this ⊢
      linarith
  rw [h1]
  calc |Real.exp (-(1 / 16)) ^ k - (ek k : ℝ)| ≤ |Real.exp (-(1 / 16)) ^ k - (e16 : ℝ) ^ k| + |(e16 : ℝ) ^ k - (ek k : ℝ)| := abs_sub_le _ _ _
    _ ≤ 900 * 1e-16 + 1e-14 := add_le_add (h2.trans h3) h4
    _ ≤ 1.5e-13 := by norm_num

/-- The Taylor polynomial of `exp (-v)` of degree 6. -/
def expTaylor : List ℚ := [1, -1, 1 / 2, -1 / 6, 1 / 24, -1 / 120, 1 / 720]

theorem expTaylor_err {v : ℝ} (hv : |v| ≤ 1) : |Real.exp (-v) - pev expTaylor v| ≤ |v| ^ 7 / 4410 := by
  have h := Real.exp_bound (x := -v) (by rw [abs_neg]; exact hv) (n := 7) (by norm_num)
  have e : ∑ m ∈ Finset.range 7, (-v) ^ m / (m.factorial : ℝ) = pev expTaylor v := by
    simp only [Finset.sum_range_succ, Finset.sum_range_zero, Nat.factorial, pev, expTaylor]
    push_cast
    ring
  rw [e, abs_neg] at h
  refine h.trans (le_of_eq ?_)
  simp only [Nat.factorial]
  push_cast
  ring

end Verif.PB
