import Mathlib.Analysis.SpecialFunctions.Pow.Real
import Mathlib.Analysis.SpecialFunctions.Complex.Arg
import Mathlib.Analysis.SpecialFunctions.Trigonometric.Inverse
import Mathlib.Analysis.SpecialFunctions.Trigonometric.Arctan
import Mathlib.Analysis.SpecialFunctions.Log.Base
import Mathlib.MeasureTheory.Integral.IntervalIntegral.Basic
import Mathlib.Algebra.Order.Round
import Verif.Base.CReal

/-!
# Exact scalars

`XR` is the scalar type the algebraic theorems are about: real numbers, two infinities and NaN. Finite arithmetic is
exact (no rounding, no overflow, one zero); the special values follow IEEE 754.
-/

namespace Verif

/-- A number without rounding: real, infinite, or not a number. -/
inductive XR where
  | fin (r : ℝ)
  | pinf
  | ninf
  | nan

namespace XR

open scoped Classical in
/-- The infinity with the sign of `a`, where `0` counts as positive (`a / +0`), NaN for `0 / 0`. -/
noncomputable def infOf (a : ℝ) : XR := if 0 < a then pinf else if a < 0 then ninf else nan

/-- IEEE negation. -/
noncomputable def neg : XR → XR
  | fin a => fin (-a)
  | pinf => ninf
  | ninf => pinf
  | nan => nan

/-- IEEE addition without rounding. -/
noncomputable def add : XR → XR → XR
  | fin a, fin b => fin (a + b)
  | nan, _ => nan
  | _, nan => nan
  | pinf, ninf => nan
  | ninf, pinf => nan
  | pinf, _ => pinf
  | _, pinf => pinf
  | ninf, _ => ninf
  | _, ninf => ninf

/-- IEEE multiplication without rounding. -/
noncomputable def mul : XR → XR → XR
  | fin a, fin b => fin (a * b)
  | nan, _ => nan
  | _, nan => nan
  | fin a, pinf => infOf a
  | pinf, fin a => infOf a
  | fin a, ninf => infOf (-a)
  | ninf, fin a => infOf (-a)
  | pinf, pinf => pinf
  | ninf, ninf => pinf
  | pinf, ninf => ninf
  | ninf, pinf => ninf

open scoped Classical in
/-- IEEE division without rounding; the only zero is positive. -/
noncomputable def div : XR → XR → XR
  | fin a, fin b => if b = 0 then infOf a else fin (a / b)
  | nan, _ => nan
  | _, nan => nan
  | fin _, _ => fin 0
  | pinf, fin b => if b < 0 then ninf else pinf
  | ninf, fin b => if b < 0 then pinf else ninf
  | _, _ => nan

open scoped Classical in
/-- IEEE `<`: false on NaN. -/
noncomputable def lt : XR → XR → Bool
  | fin a, fin b => decide (a < b)
  | nan, _ => false
  | _, nan => false
  | ninf, ninf => false
  | ninf, _ => true
  | _, ninf => false
  | pinf, _ => false
  | _, pinf => true

open scoped Classical in
/-- IEEE `==`: false on NaN. -/
noncomputable def beq : XR → XR → Bool
  | fin a, fin b => decide (a = b)
  | pinf, pinf => true
  | ninf, ninf => true
  | _, _ => false

/-- IEEE `<=`: false on NaN. -/
noncomputable def le (a b : XR) : Bool := lt a b || beq a b

/-- A function that is undefined (NaN) on infinities. -/
noncomputable def lift (f : ℝ → ℝ) : XR → XR
  | fin a => fin (f a)
  | _ => nan

open scoped Classical in
/-- A function with a restricted real domain, NaN elsewhere. -/
noncomputable def liftOn (dom : Set ℝ) (f : ℝ → ℝ) : XR → XR
  | fin a => if a ∈ dom then fin (f a) else nan
  | _ => nan

/-- The real error function. -/
noncomputable def rerf (x : ℝ) : ℝ := 2 / Real.sqrt Real.pi * ∫ t in (0 : ℝ)..x, Real.exp (-(t ^ 2))

open scoped Classical in
/-- Round half away from zero (C `round`). -/
noncomputable def rround (x : ℝ) : ℝ := if 0 ≤ x then (⌊x + 1 / 2⌋ : ℝ) else (⌈x - 1 / 2⌉ : ℝ)

open scoped Classical in
/-- C `pow` on finite arguments. Simplification: infinite and NaN arguments give NaN. -/
noncomputable def pow : XR → XR → XR
  | fin x, fin y =>
    if 0 < x then fin (x ^ y)
    else if x = 0 then (if 0 < y then fin 0 else if y = 0 then fin 1 else pinf)
    else if ∃ n : ℤ, (n : ℝ) = y then fin (x ^ ⌊y⌋) else nan
  | _, _ => nan

open scoped Classical in
/-- C `sqrt`. -/
noncomputable def sqrt : XR → XR
  | fin a => if a < 0 then nan else fin (Real.sqrt a)
  | pinf => pinf
  | _ => nan

open scoped Classical in
/-- C `log` (scaled by `k` for `log10`). -/
noncomputable def logk (f : ℝ → ℝ) : XR → XR
  | fin a => if a < 0 then nan else if a = 0 then ninf else fin (f a)
  | pinf => pinf
  | _ => nan

open scoped Classical in
/-- C `atan2`. -/
noncomputable def atan2 : XR → XR → XR
  | fin y, fin x => fin (Complex.arg ⟨x, y⟩)
  | nan, _ => nan
  | _, nan => nan
  | fin _, pinf => fin 0
  | fin y, ninf => if y < 0 then fin (-Real.pi) else fin Real.pi
  | pinf, fin _ => fin (Real.pi / 2)
  | ninf, fin _ => fin (-(Real.pi / 2))
  | pinf, pinf => fin (Real.pi / 4)
  | pinf, ninf => fin (3 * Real.pi / 4)
  | ninf, pinf => fin (-(Real.pi / 4))
  | ninf, ninf => fin (-(3 * Real.pi / 4))

/-- C `exp`. -/
noncomputable def exp : XR → XR
  | fin a => fin (Real.exp a)
  | pinf => pinf
  | ninf => fin 0
  | nan => nan

/-- C `fabs`. -/
noncomputable def abs : XR → XR
  | fin a => fin |a|
  | nan => nan
  | _ => pinf

/-- C `atan`. -/
noncomputable def atan : XR → XR
  | fin a => fin (Real.arctan a)
  | pinf => fin (Real.pi / 2)
  | ninf => fin (-(Real.pi / 2))
  | nan => nan

/-- `floor`, `ceil`, `round` leave infinities alone. -/
noncomputable def rnd (f : ℝ → ℝ) : XR → XR
  | fin a => fin (f a)
  | x => x

/-- Functions with limits at the infinities. -/
noncomputable def lim (f : ℝ → ℝ) (atp atn : XR) : XR → XR
  | fin a => fin (f a)
  | pinf => atp
  | ninf => atn
  | nan => nan

open scoped Classical in
/-- Conversion to an integer: truncation toward zero. -/
noncomputable def trunc : XR → Option Int
  | fin a => some (if 0 ≤ a then ⌊a⌋ else ⌈a⌉)
  | _ => none

noncomputable instance : CReal XR where
  add := add
  sub a b := add a (neg b)
  mul := mul
  div := div
  neg := neg
  lit q := fin (q : ℝ)
  nan := nan
  lt := lt
  le := le
  eq := beq
  abs := abs
  sqrt := sqrt
  sin := lift Real.sin
  cos := lift Real.cos
  tan := lift Real.tan
  asin := liftOn (Set.Icc (-1) 1) Real.arcsin
  acos := liftOn (Set.Icc (-1) 1) Real.arccos
  atan := atan
  atan2 := atan2
  exp := exp
  log := logk Real.log
  log10 := logk (Real.logb 10)
  pow := pow
  floor := rnd fun x => (⌊x⌋ : ℝ)
  ceil := rnd fun x => (⌈x⌉ : ℝ)
  round := rnd rround
  sinh := lim Real.sinh pinf ninf
  cosh := lim Real.cosh pinf pinf
  tanh := lim Real.tanh (fin 1) (fin (-1))
  erf := lim rerf (fin 1) (fin (-1))
  fma a b c := add (mul a b) c
  expm1 a := add (exp a) (fin (-1))
  trunc := trunc

@[simp] theorem fin_inj {a b : ℝ} : fin a = fin b ↔ a = b := by
  constructor
  · intro h
    cases h
    rfl
  · exact fun h => h ▸ rfl

@[simp] theorem fin_ne_nan (a : ℝ) : fin a ≠ nan := by simp
@[simp] theorem fin_ne_pinf (a : ℝ) : fin a ≠ pinf := by simp
@[simp] theorem fin_ne_ninf (a : ℝ) : fin a ≠ ninf := by simp

@[simp] theorem fin_add (a b : ℝ) : fin a + fin b = fin (a + b) := rfl
@[simp] theorem fin_sub (a b : ℝ) : fin a - fin b = fin (a - b) := by
  rw [sub_eq_add_neg]; rfl
@[simp] theorem fin_mul (a b : ℝ) : fin a * fin b = fin (a * b) := rfl
@[simp] theorem fin_neg (a : ℝ) : -fin a = fin (-a) := rfl

theorem fin_div {a b : ℝ} (h : b ≠ 0) : fin a / fin b = fin (a / b) := by
  change div (fin a) (fin b) = _
  simp [div, h]

theorem fin_div_zero (a : ℝ) : fin a / fin 0 = infOf a := by
  change div (fin a) (fin 0) = _
  simp [div]

@[simp] theorem lit_eq (q : ℚ) : (lit q : XR) = fin (q : ℝ) := rfl
theorem ofNat_eq (n : ℕ) : (CReal.ofNat n : XR) = fin (n : ℝ) := by simp [CReal.ofNat]
theorem ofInt_eq (n : ℤ) : (CReal.ofInt n : XR) = fin (n : ℝ) := by simp [CReal.ofInt]
@[simp] theorem nan_eq : (CReal.nan : XR) = nan := rfl

@[simp] theorem fin_lt (a b : ℝ) : CReal.lt (fin a) (fin b) = true ↔ a < b := by
  change lt _ _ = true ↔ _
  simp [lt]
@[simp] theorem fin_lt_false (a b : ℝ) : CReal.lt (fin a) (fin b) = false ↔ b ≤ a := by
  change lt _ _ = false ↔ _
  simp [lt]
@[simp] theorem fin_le (a b : ℝ) : CReal.le (fin a) (fin b) = true ↔ a ≤ b := by
  change le _ _ = true ↔ _
  simp [le, lt, beq, le_iff_lt_or_eq]
@[simp] theorem fin_le_false (a b : ℝ) : CReal.le (fin a) (fin b) = false ↔ b < a := by
  rw [← Bool.not_eq_true, fin_le, not_le]
@[simp] theorem fin_gt (a b : ℝ) : CReal.gt (fin a) (fin b) = true ↔ b < a := fin_lt b a
@[simp] theorem fin_gt_false (a b : ℝ) : CReal.gt (fin a) (fin b) = false ↔ a ≤ b :=
  fin_lt_false b a
@[simp] theorem fin_ge (a b : ℝ) : CReal.ge (fin a) (fin b) = true ↔ b ≤ a := fin_le b a
@[simp] theorem fin_ge_false (a b : ℝ) : CReal.ge (fin a) (fin b) = false ↔ a < b :=
  fin_le_false b a
@[simp] theorem fin_eq (a b : ℝ) : CReal.eq (fin a) (fin b) = true ↔ a = b := by
  change beq _ _ = true ↔ _
  simp [beq]
@[simp] theorem fin_eq_false (a b : ℝ) : CReal.eq (fin a) (fin b) = false ↔ a ≠ b := by
  rw [← Bool.not_eq_true, fin_eq]
@[simp] theorem fin_ne (a b : ℝ) : CReal.ne (fin a) (fin b) = true ↔ a ≠ b := by
  simp [CReal.ne]
@[simp] theorem fin_ne_false (a b : ℝ) : CReal.ne (fin a) (fin b) = false ↔ a = b := by
  simp [CReal.ne]

@[simp] theorem fin_abs (a : ℝ) : CReal.abs (fin a) = fin |a| := rfl
theorem fin_sqrt {a : ℝ} (h : 0 ≤ a) : CReal.sqrt (fin a) = fin (Real.sqrt a) := by
  change sqrt _ = _
  simp [sqrt, not_lt.2 h]
theorem fin_sqrt_neg {a : ℝ} (h : a < 0) : CReal.sqrt (fin a) = nan := by
  change sqrt _ = _
  simp [sqrt, h]
@[simp] theorem fin_sin (a : ℝ) : CReal.sin (fin a) = fin (Real.sin a) := rfl
@[simp] theorem fin_cos (a : ℝ) : CReal.cos (fin a) = fin (Real.cos a) := rfl
@[simp] theorem fin_tan (a : ℝ) : CReal.tan (fin a) = fin (Real.tan a) := rfl
@[simp] theorem fin_atan (a : ℝ) : CReal.atan (fin a) = fin (Real.arctan a) := rfl
@[simp] theorem fin_atan2 (y x : ℝ) : CReal.atan2 (fin y) (fin x) = fin (Complex.arg ⟨x, y⟩) := rfl
@[simp] theorem fin_exp (a : ℝ) : CReal.exp (fin a) = fin (Real.exp a) := rfl
@[simp] theorem fin_expm1 (a : ℝ) : CReal.expm1 (fin a) = fin (Real.exp a - 1) := by
  rw [sub_eq_add_neg]; rfl
@[simp] theorem fin_fma (a b c : ℝ) : CReal.fma (fin a) (fin b) (fin c) = fin (a * b + c) := rfl
@[simp] theorem fin_erf (a : ℝ) : CReal.erf (fin a) = fin (rerf a) := rfl
theorem fin_asin {a : ℝ} (h : a ∈ Set.Icc (-1 : ℝ) 1) : CReal.asin (fin a) = fin (Real.arcsin a) := by
  change liftOn _ _ _ = _
  simp only [liftOn, if_pos h]
theorem fin_acos {a : ℝ} (h : a ∈ Set.Icc (-1 : ℝ) 1) : CReal.acos (fin a) = fin (Real.arccos a) := by
  change liftOn _ _ _ = _
  simp only [liftOn, if_pos h]
theorem fin_log {a : ℝ} (h : 0 < a) : CReal.log (fin a) = fin (Real.log a) := by
  change logk _ _ = _
  simp [logk, not_lt.2 h.le, h.ne']
theorem fin_log_zero : CReal.log (fin 0) = ninf := by
  change logk _ _ = _
  simp [logk]
theorem fin_log10 {a : ℝ} (h : 0 < a) : CReal.log10 (fin a) = fin (Real.logb 10 a) := by
  change logk _ _ = _
  simp [logk, not_lt.2 h.le, h.ne']
theorem fin_pow_pos {x : ℝ} (y : ℝ) (h : 0 < x) : CReal.pow (fin x) (fin y) = fin (x ^ y) := by
  change pow _ _ = _
  simp [pow, h]

/-- `pow` with a natural number as exponent is the ordinary power. -/
theorem fin_pow_nat (x : ℝ) (n : ℕ) : CReal.pow (fin x) (fin (n : ℝ)) = fin (x ^ n) := by
  change pow _ _ = _
  unfold pow
  simp only
  split_ifs with h1 h2 h3 h4 h5
  · rw [Real.rpow_natCast]
  · subst h2
    rw [zero_pow]
    rintro rfl
    simp at h3
  · subst h2
    have : n = 0 := by exact_mod_cast h4
    subst this
    simp
  · exfalso
    have : (0 : ℝ) ≤ n := Nat.cast_nonneg n
    rcases this.lt_or_eq with h | h
    · exact h3 h
    · exact h4 h.symm
  · rw [Int.floor_natCast, zpow_natCast]
  · exact absurd ⟨(n : ℤ), by simp⟩ h5

end XR
end Verif
