import Verif.Base.FX

/-!
# Scalars with rounding, overflow and underflow

`BX G` is the scalar type of the theorems about the range of floating point numbers: the result of every operation is rounded by
`G`, which delivers an infinity above a largest number and loses relative precision, down to zero, below a smallest one. IEEE single and
double precision with gradual underflow are such formats (`Spec/Ieee.lean`).
Simplifications: no signed zero (so that `1 / (x - x)` is the positive infinity), no excess precision, no contraction, and the functions
of libm other than `sqrt`, about which nothing is assumed, see the numbers as they are.
-/

namespace Verif

/-- A floating point format: rounding of real numbers with relative error `u` and absolute error `tiny`, to numbers of absolute value at
most `top`. -/
structure Format where
  /-- The rounded number, possibly infinite. -/
  rnd : ℝ → XR
  /-- The unit roundoff. -/
  u : ℝ
  /-- Half of the smallest positive number. -/
  tiny : ℝ
  /-- The largest number. -/
  top : ℝ
  /-- The numbers from here on are rounded to infinity. -/
  over : ℝ
  u_nonneg : 0 ≤ u
  u_lt : u < 1
  tiny_pos : 0 < tiny
  one_le_top : 1 ≤ top
  top_lt_over : top < over
  /-- Numbers in the range stay in the range. -/
  fin_of : ∀ x, |x| ≤ top → ∃ r, rnd x = XR.fin r ∧ |r| ≤ top
  err : ∀ x r, rnd x = XR.fin r → |r - x| ≤ u * |x| + tiny
  pinf_of : ∀ x, over ≤ x → rnd x = XR.pinf
  ninf_of : ∀ x, x ≤ -over → rnd x = XR.ninf
  zero_of : ∀ x, |x| < tiny → rnd x = XR.fin 0
  mono : ∀ x y a b, x ≤ y → rnd x = XR.fin a → rnd y = XR.fin b → a ≤ b
  not_nan : ∀ x, rnd x ≠ XR.nan
  not_ninf : ∀ x, 0 ≤ x → rnd x ≠ XR.ninf
  not_pinf : ∀ x, x ≤ 0 → rnd x ≠ XR.pinf
  one : rnd 1 = XR.fin 1
  rnd_top : rnd top = XR.fin top
  /-- The numbers of the format are not changed. -/
  idem : ∀ x r, rnd x = XR.fin r → rnd r = XR.fin r
  /-- The mathematical library. -/
  lib : Libm

/-- A number in the format `G`, or any other real number that somebody stored in a variable of this type. -/
structure BX (G : Format) where
  val : XR

namespace BX

variable {G : Format}

/-- A finite number. -/
def of (G : Format) (r : ℝ) : BX G := ⟨XR.fin r⟩

/-- The rounded result of an operation. -/
noncomputable def rd (G : Format) : XR → BX G
  | XR.fin x => ⟨G.rnd x⟩
  | x => ⟨x⟩

/-- A library function. -/
def lib1 (name : String) (x : BX G) : BX G := ⟨G.lib.fn1 name x.val⟩

noncomputable instance : CReal (BX G) where
  add a b := rd G (a.val + b.val)
  sub a b := rd G (a.val - b.val)
  mul a b := rd G (a.val * b.val)
  div a b := rd G (a.val / b.val)
  neg a := ⟨-a.val⟩
  lit q := rd G (lit q)
  nan := ⟨CReal.nan⟩
  lt a b := CReal.lt a.val b.val
  le a b := CReal.le a.val b.val
  eq a b := CReal.eq a.val b.val
  abs a := ⟨CReal.abs a.val⟩
  sqrt a := rd G (CReal.sqrt a.val)
  sin := lib1 "sin"
  cos := lib1 "cos"
  tan := lib1 "tan"
  asin := lib1 "asin"
  acos := lib1 "acos"
  atan := lib1 "atan"
  atan2 a b := ⟨G.lib.atan2 a.val b.val⟩
  exp := lib1 "exp"
  log := lib1 "log"
  log10 := lib1 "log10"
  pow a b := ⟨G.lib.pow a.val b.val⟩
  floor a := ⟨CReal.floor a.val⟩
  ceil a := ⟨CReal.ceil a.val⟩
  round a := ⟨CReal.round a.val⟩
  sinh := lib1 "sinh"
  cosh := lib1 "cosh"
  tanh := lib1 "tanh"
  erf := lib1 "erf"
  fma a b c := rd G (a.val * b.val + c.val)
  expm1 := lib1 "expm1"
  trunc a := CReal.trunc a.val

theorem of_add (a b : ℝ) : of G a + of G b = ⟨G.rnd (a + b)⟩ := rfl
theorem of_sub (a b : ℝ) : of G a - of G b = ⟨G.rnd (a - b)⟩ := by
  change rd G (XR.fin a - XR.fin b) = _
  rw [XR.fin_sub]
  rfl
theorem of_mul (a b : ℝ) : of G a * of G b = ⟨G.rnd (a * b)⟩ := rfl
theorem of_div {a b : ℝ} (h : b ≠ 0) : of G a / of G b = ⟨G.rnd (a / b)⟩ := by
  change rd G (XR.fin a / XR.fin b) = _
  rw [XR.fin_div h]
  rfl
theorem of_sqrt {a : ℝ} (h : 0 ≤ a) : CReal.sqrt (of G a) = ⟨G.rnd (Real.sqrt a)⟩ := by
  change rd G (CReal.sqrt (XR.fin a)) = _
  rw [XR.fin_sqrt h]
  rfl
theorem lit_eq (q : ℚ) : (lit q : BX G) = ⟨G.rnd (q : ℝ)⟩ := rfl

end BX

namespace Format

variable (G : Format)

theorem rnd_zero : G.rnd 0 = XR.fin 0 := G.zero_of 0 (by rw [abs_zero]; exact G.tiny_pos)

theorem lit_zero : (lit 0 : BX G) = BX.of G 0 := by
  rw [BX.lit_eq]
  simp [G.rnd_zero, BX.of]

theorem lit_one : (lit 1 : BX G) = BX.of G 1 := by
  rw [BX.lit_eq]
  simp [G.one, BX.of]

theorem nonneg {x r : ℝ} (h : 0 ≤ x) (e : G.rnd x = XR.fin r) : 0 ≤ r := G.mono 0 x 0 r h G.rnd_zero e

/-- The rounded value of a number that is not negative. -/
theorem rnd_pos_cases {x : ℝ} (h : 0 ≤ x) : (∃ r, 0 ≤ r ∧ G.rnd x = XR.fin r) ∨ G.rnd x = XR.pinf := by
  cases e : G.rnd x with
  | fin r => exact Or.inl ⟨r, G.nonneg h e, rfl⟩
  | pinf => exact Or.inr rfl
  | ninf => exact absurd e (G.not_ninf x h)
  | nan => exact absurd e (G.not_nan x)

/-- In range, with the error. -/
theorem in_range {x : ℝ} (h : |x| ≤ G.top) : ∃ r, G.rnd x = XR.fin r ∧ |r| ≤ G.top ∧ |r - x| ≤ G.u * |x| + G.tiny := by
  obtain ⟨r, e, hr⟩ := G.fin_of x h
  exact ⟨r, e, hr, G.err x r e⟩

end Format

end Verif
