import Mathlib.Analysis.Complex.Exponential
import Mathlib.Tactic

/-!
# The exponential function in fixed point arithmetic

Natural numbers stand for multiples of 10⁻³⁰. Every step rounds down; the lemmas bound the total error.
-/

namespace Verif.EF

/-- `k x`, written so that the kernel evaluates `x` before it continues. -/
def frc {α : Type} (x : ℕ) (k : ℕ → α) : α := Nat.rec (k 0) (fun n _ => k (n + 1)) x

theorem frc_eq {α : Type} (x : ℕ) (k : ℕ → α) : frc x k = k x := by cases x <;> rfl

attribute [irreducible] frc

/-- The unit. -/
def one : ℕ := 1000000000000000000000000000000

theorem one_val : ((one : ℕ) : ℝ) = 10 ^ 30 := by norm_num [one]

theorem one_unit : (1e-30 : ℝ) * (one : ℕ) = 1 := by norm_num [one]

theorem one_pos' : (0 : ℝ) < (one : ℕ) := by norm_num [one]

/-- One step of Horner's scheme: `1 - r h / m`. -/
def hor (r m h : ℕ) : ℕ := one - r * h / (m * one)

/-- The Taylor polynomial of `exp (-r)` of degree 8. -/
def taylor (r : ℕ) : ℕ := hor r 1 (hor r 2 (hor r 3 (hor r 4 (hor r 5 (hor r 6 (hor r 7 (hor r 8 one)))))))

/-- Squaring. -/
def sqr (x : ℕ) : ℕ := frc x fun n => n * n / one

/-- `exp (-4096 r)`. -/
def expN (r : ℕ) : ℕ := sqr (sqr (sqr (sqr (sqr (sqr (sqr (sqr (sqr (sqr (sqr (sqr (taylor r))))))))))))

/-- Division of natural numbers loses less than one. -/
theorem div_close (a b : ℕ) (hb : 0 < b) : ((a / b : ℕ) : ℝ) ≤ a / b ∧ (a : ℝ) / b < ((a / b : ℕ) : ℝ) + 1 := by
  have hb' : (0 : ℝ) < b := by exact_mod_cast hb
  constructor
  · exact Nat.cast_div_le
  · rw [div_lt_iff₀ hb']
    have := Nat.lt_mul_div_succ a hb
    rw [mul_comm] at this
    exact_mod_cast this

theorem hor_close {r m h : ℕ} {H : ℝ} (hm : 0 < m) (hr : 128 * r ≤ one) (hh : h ≤ one)
    (e : |(h : ℝ) / one - H| ≤ 2e-30) :
    hor r m h ≤ one ∧ |(hor r m h : ℝ) / one - (1 - (r : ℝ) / one / m * H)| ≤ 2e-30 := by
  have hs := one_pos'
  have hm1 : (1 : ℝ) ≤ m := by exact_mod_cast hm
  have ho : 0 < m * one := Nat.mul_pos hm (by norm_num [one])
  obtain ⟨d1, d2⟩ := div_close (r * h) (m * one) ho
  have hle : r * h / (m * one) ≤ one := by
    refine Nat.div_le_of_le_mul ?_
    have : r * h ≤ one * one := Nat.mul_le_mul (by omega) hh
    calc r * h ≤ one * one := this
      _ ≤ m * one * one := by nlinarith [Nat.mul_le_mul_right (one * one) hm]
  refine ⟨Nat.sub_le _ _, ?_⟩
  unfold hor
  rw [Nat.cast_sub hle]
  push_cast at d1 d2
  obtain ⟨q, hq⟩ : ∃ q : ℝ, ((r * h / (m * one) : ℕ) : ℝ) = q := ⟨_, rfl⟩
  rw [hq] at d1 d2 ⊢
  have hr' : (r : ℝ) / one ≤ 1 / 128 := by
    rw [div_le_div_iff₀ hs (by norm_num)]
    have : ((128 * r : ℕ) : ℝ) ≤ (one : ℕ) := by exact_mod_cast hr
    push_cast at this
    linarith
  have hr0 : 0 ≤ (r : ℝ) / one := by positivity
  have e1 : ((one : ℕ) - q) / (one : ℕ) - (1 - (r : ℝ) / one / m * H) = ((r : ℝ) * h / (m * one) - q) / one - (r : ℝ) / one / m * ((h : ℝ) / one - H) := by
    field_simp
    ring
  rw [e1]
  have a1 : |((r : ℝ) * h / (m * one) - q) / one| ≤ 1e-30 := by
    rw [abs_div, abs_of_pos hs, div_le_iff₀ hs, one_unit, abs_of_nonneg (by linarith)]
    linarith
  have a2 : |(r : ℝ) / one / m * ((h : ℝ) / one - H)| ≤ 1 / 128 * 2e-30 := by
    rw [abs_mul]
    refine mul_le_mul ?_ e (abs_nonneg _) (by norm_num)
    rw [abs_of_nonneg (by positivity)]
    refine (div_le_self hr0 hm1).trans hr'
  have := abs_sub (((r : ℝ) * h / (m * one) - q) / one) ((r : ℝ) / one / m * ((h : ℝ) / one - H))
  norm_num at a1 a2 this ⊢
  linarith

theorem taylor_close {r : ℕ} (hr : 128 * r ≤ one) : taylor r ≤ one ∧ |(taylor r : ℝ) / one - Real.exp (-((r : ℝ) / one))| ≤ 1e-24 := by
  have hs := one_pos'
  have h0 : |((one : ℕ) : ℝ) / one - 1| ≤ 2e-30 := by rw [div_self hs.ne']; norm_num
  obtain ⟨l8, h8⟩ := hor_close (m := 8) (by norm_num) hr le_rfl h0
  obtain ⟨l7, h7⟩ := hor_close (m := 7) (by norm_num) hr l8 h8
  obtain ⟨l6, h6⟩ := hor_close (m := 6) (by norm_num) hr l7 h7
  obtain ⟨l5, h5⟩ := hor_close (m := 5) (by norm_num) hr l6 h6
  obtain ⟨l4, h4⟩ := hor_close (m := 4) (by norm_num) hr l5 h5
  obtain ⟨l3, h3⟩ := hor_close (m := 3) (by norm_num) hr l4 h4
  obtain ⟨l2, h2⟩ := hor_close (m := 2) (by norm_num) hr l3 h3
  obtain ⟨l1, h1⟩ := hor_close (m := 1) (by norm_num) hr l2 h2
  refine ⟨l1, ?_⟩
  have hx0 : 0 ≤ (r : ℝ) / one := by positivity
  have hx : (r : ℝ) / one ≤ 1 / 128 := by
    rw [div_le_div_iff₀ hs (by norm_num)]
    have : ((128 * r : ℕ) : ℝ) ≤ (one : ℕ) := by exact_mod_cast hr
    push_cast at this
    linarith
  have hb := Real.exp_bound (x := -((r : ℝ) / one)) (by rw [abs_neg, abs_of_nonneg hx0]; linarith) (n := 9) (by norm_num)
  rw [abs_neg, abs_of_nonneg hx0] at hb
  change |(taylor r : ℝ) / one - _| ≤ 2e-30 at h1
  obtain ⟨x, hxx⟩ : ∃ x : ℝ, (r : ℝ) / one = x := ⟨_, rfl⟩
  rw [hxx] at h1 hb hx0 hx ⊢
  have hp : x ^ 9 ≤ (1 / 128) ^ 9 := pow_le_pow_left₀ hx0 hx 9
  simp only [Finset.sum_range_succ, Finset.sum_range_zero, Nat.factorial] at hb
  push_cast at hb h1
  rw [abs_le] at hb h1 ⊢
  norm_num at hb h1 hp ⊢
  constructor <;> nlinarith

theorem sqr_close {x : ℕ} {F e : ℝ} (hx : x ≤ one) (h0 : 0 ≤ F) (h1 : F ≤ 1) (e0 : |(x : ℝ) / one - F| ≤ e) :
    sqr x ≤ one ∧ |(sqr x : ℝ) / one - F ^ 2| ≤ 2 * e + 1e-30 := by
  have hs := one_pos'
  have ho : 0 < one := by norm_num [one]
  rw [sqr, frc_eq]
  obtain ⟨d1, d2⟩ := div_close (x * x) one ho
  refine ⟨Nat.div_le_of_le_mul (Nat.mul_le_mul hx hx), ?_⟩
  push_cast at d1 d2
  obtain ⟨q, hq⟩ : ∃ q : ℝ, ((x * x / one : ℕ) : ℝ) = q := ⟨_, rfl⟩
  rw [hq] at d1 d2 ⊢
  have hX : (x : ℝ) / one ≤ 1 := by
    rw [div_le_one hs]; exact_mod_cast hx
  have hX0 : 0 ≤ (x : ℝ) / one := by positivity
  have e1 : q / one - F ^ 2 = (q - (x : ℝ) * x / one) / one + ((x : ℝ) / one - F) * ((x : ℝ) / one + F) := by
    field_simp
    ring
  rw [e1]
  have a1 : |(q - (x : ℝ) * x / one) / one| ≤ 1e-30 := by
    rw [abs_div, abs_of_pos hs, div_le_iff₀ hs, one_unit, abs_of_nonpos (by linarith)]
    linarith
  have a2 : |((x : ℝ) / one - F) * ((x : ℝ) / one + F)| ≤ e * 2 := by
    rw [abs_mul]
    refine mul_le_mul e0 ?_ (abs_nonneg _) ((abs_nonneg _).trans e0)
    rw [abs_of_nonneg (by linarith)]
    linarith
  have := abs_add_le ((q - (x : ℝ) * x / one) / one) (((x : ℝ) / one - F) * ((x : ℝ) / one + F))
  linarith

theorem expN_close {r : ℕ} (hr : 128 * r ≤ one) : expN r ≤ one ∧ |(expN r : ℝ) / one - Real.exp (-(4096 * ((r : ℝ) / one)))| ≤ 5e-21 := by
  obtain ⟨l0, h0⟩ := taylor_close hr
  have hx0 : 0 ≤ (r : ℝ) / one := by positivity
  obtain ⟨x, hxx⟩ : ∃ x : ℝ, (r : ℝ) / one = x := ⟨_, rfl⟩
  rw [hxx] at h0 hx0 ⊢
  have hp : ∀ y : ℝ, 0 ≤ y → 0 ≤ Real.exp (-y) ∧ Real.exp (-y) ≤ 1 := fun y hy =>
    ⟨(Real.exp_pos _).le, Real.exp_le_one_iff.2 (by linarith)⟩
  have hd : ∀ y : ℝ, Real.exp (-y) ^ 2 = Real.exp (-(2 * y)) := fun y => by rw [← Real.exp_nat_mul]; congr 1; push_cast; ring
  have step : ∀ (z : ℕ) (y e : ℝ), 0 ≤ y → z ≤ one → |(z : ℝ) / one - Real.exp (-y)| ≤ e →
      sqr z ≤ one ∧ |(sqr z : ℝ) / one - Real.exp (-(2 * y))| ≤ 2 * e + 1e-30 := fun z y e hy hz he => by
    have := sqr_close hz (hp y hy).1 (hp y hy).2 he
    rwa [hd] at this
  obtain ⟨l1, h1⟩ := step _ _ _ (by positivity) l0 h0
  obtain ⟨l2, h2⟩ := step _ _ _ (by positivity) l1 h1
  obtain ⟨l3, h3⟩ := step _ _ _ (by positivity) l2 h2
  obtain ⟨l4, h4⟩ := step _ _ _ (by positivity) l3 h3
  obtain ⟨l5, h5⟩ := step _ _ _ (by positivity) l4 h4
  obtain ⟨l6, h6⟩ := step _ _ _ (by positivity) l5 h5
  obtain ⟨l7, h7⟩ := step _ _ _ (by positivity) l6 h6
  obtain ⟨l8, h8⟩ := step _ _ _ (by positivity) l7 h7
  obtain ⟨l9, h9⟩ := step _ _ _ (by positivity) l8 h8
  obtain ⟨l10, h10⟩ := step _ _ _ (by positivity) l9 h9
  obtain ⟨l11, h11⟩ := step _ _ _ (by positivity) l10 h10
  obtain ⟨l12, h12⟩ := step _ _ _ (by positivity) l11 h11
  refine ⟨l12, ?_⟩
  rw [show 4096 * x = 2 * (2 * (2 * (2 * (2 * (2 * (2 * (2 * (2 * (2 * (2 * (2 * x))))))))))) by ring]
  refine h12.trans ?_
  norm_num

end Verif.EF
