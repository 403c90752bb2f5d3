import Verif.Base.XR

/-!
# Scalars with rounding

`FX F` is the scalar type of the theorems about rounding errors: real numbers, two infinities and NaN, where the result of every
operation is rounded by `F`. `F` is any rounding with a bounded relative error, and any mathematical library.

This is the usual model of floating point arithmetic: IEEE single and double precision satisfy it with `u = 2⁻²⁴` and `u = 2⁻⁵³`
(rounding to nearest), or twice that (any other rounding direction), as long as no operation overflows or underflows.
Simplifications: no overflow and no underflow, no signed zero, every operation rounds to the precision of `zsl_real_t` (no excess
precision, no contraction of `a * b + c`).
-/

namespace Verif

/-- The functions of libm other than `sqrt`, which nothing is assumed about. -/
structure Libm where
  /-- Functions of one argument, by name. -/
  fn1 : String → XR → XR
  /-- `atan2` -/
  atan2 : XR → XR → XR
  /-- `pow` -/
  pow : XR → XR → XR

/-- A way of rounding real numbers with relative error at most `u`. -/
structure Rounding where
  /-- The rounded number. -/
  rnd : ℝ → ℝ
  /-- The unit roundoff. -/
  u : ℝ
  u_nonneg : 0 ≤ u
  u_lt : u < 1
  err : ∀ x, |rnd x - x| ≤ u * |x|
  mono : Monotone rnd
  idem : ∀ x, rnd (rnd x) = rnd x
  one : rnd 1 = 1
  neg_one : rnd (-1) = -1
  /-- The mathematical library. -/
  lib : Libm

/-- A number in an arithmetic with rounding `F`. -/
structure FX (F : Rounding) where
  val : XR

namespace FX

variable {F : Rounding}

/-- A finite number. -/
def of (F : Rounding) (r : ℝ) : FX F := ⟨XR.fin r⟩

/-- The rounded result of an operation. -/
noncomputable def rd (F : Rounding) (x : XR) : FX F := ⟨XR.rnd F.rnd x⟩

/-- A library function. -/
def lib1 (name : String) (x : FX F) : FX F := ⟨F.lib.fn1 name x.val⟩

noncomputable instance : CReal (FX F) where
  add a b := rd F (a.val + b.val)
  sub a b := rd F (a.val - b.val)
  mul a b := rd F (a.val * b.val)
  div a b := rd F (a.val / b.val)
  neg a := ⟨-a.val⟩
  lit q := rd F (lit q)
  nan := ⟨CReal.nan⟩
  lt a b := CReal.lt a.val b.val
  le a b := CReal.le a.val b.val
  eq a b := CReal.eq a.val b.val
  abs a := ⟨CReal.abs a.val⟩
  sqrt a := rd F (CReal.sqrt a.val)
  sin := lib1 "sin"
  cos := lib1 "cos"
  tan := lib1 "tan"
  asin := lib1 "asin"
  acos := lib1 "acos"
  atan := lib1 "atan"
  atan2 a b := ⟨F.lib.atan2 a.val b.val⟩
  exp := lib1 "exp"
  log := lib1 "log"
  log10 := lib1 "log10"
  pow a b := ⟨F.lib.pow a.val b.val⟩
  floor a := ⟨CReal.floor a.val⟩
  ceil a := ⟨CReal.ceil a.val⟩
  round a := ⟨CReal.round a.val⟩
  sinh := lib1 "sinh"
  cosh := lib1 "cosh"
  tanh := lib1 "tanh"
  erf := lib1 "erf"
  fma a b c := rd F (a.val * b.val + c.val)
  expm1 := lib1 "expm1"
  trunc a := CReal.trunc a.val

@[simp] theorem of_inj {a b : ℝ} : of F a = of F b ↔ a = b := by simp [of]

@[simp] theorem of_add (a b : ℝ) : of F a + of F b = of F (F.rnd (a + b)) := rfl
@[simp] theorem of_sub (a b : ℝ) : of F a - of F b = of F (F.rnd (a - b)) := by
  change rd F (XR.fin a - XR.fin b) = _
  rw [XR.fin_sub]
  rfl
@[simp] theorem of_mul (a b : ℝ) : of F a * of F b = of F (F.rnd (a * b)) := rfl
@[simp] theorem of_neg (a : ℝ) : -of F a = of F (-a) := rfl
theorem of_div {a b : ℝ} (h : b ≠ 0) : of F a / of F b = of F (F.rnd (a / b)) := by
  change rd F (XR.fin a / XR.fin b) = _
  rw [XR.fin_div h]
  rfl
theorem of_div_zero (a : ℝ) : of F a / of F 0 = ⟨XR.infOf a⟩ := by
  change rd F (XR.fin a / XR.fin 0) = _
  rw [XR.fin_div_zero]
  unfold XR.infOf rd
  split_ifs <;> rfl
@[simp] theorem lit_eq (q : ℚ) : (lit q : FX F) = of F (F.rnd (q : ℝ)) := rfl
@[simp] theorem of_abs (a : ℝ) : CReal.abs (of F a) = of F |a| := rfl
theorem of_sqrt {a : ℝ} (h : 0 ≤ a) : CReal.sqrt (of F a) = of F (F.rnd (Real.sqrt a)) := by
  change rd F (CReal.sqrt (XR.fin a)) = _
  rw [XR.fin_sqrt h]
  rfl
@[simp] theorem of_lt (a b : ℝ) : CReal.lt (of F a) (of F b) = true ↔ a < b := XR.fin_lt a b
@[simp] theorem of_le (a b : ℝ) : CReal.le (of F a) (of F b) = true ↔ a ≤ b := XR.fin_le a b
@[simp] theorem of_eq (a b : ℝ) : CReal.eq (of F a) (of F b) = true ↔ a = b := XR.fin_eq a b
@[simp] theorem of_gt (a b : ℝ) : CReal.gt (of F a) (of F b) = true ↔ b < a := XR.fin_lt b a
@[simp] theorem of_ge (a b : ℝ) : CReal.ge (of F a) (of F b) = true ↔ b ≤ a := XR.fin_le b a
@[simp] theorem of_ne (a b : ℝ) : CReal.ne (of F a) (of F b) = true ↔ a ≠ b := XR.fin_ne a b
theorem ofNat_eq (n : ℕ) : (CReal.ofNat n : FX F) = of F (F.rnd (n : ℝ)) := by simp [CReal.ofNat]
theorem ofInt_eq (n : ℤ) : (CReal.ofInt n : FX F) = of F (F.rnd (n : ℝ)) := by simp [CReal.ofInt]

end FX

end Verif
