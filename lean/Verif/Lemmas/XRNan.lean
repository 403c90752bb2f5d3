import Verif.Base.XR

/-! # Helper lemmas: NaN propagates -/

namespace Verif.XR

theorem nan_add (x : XR) : XR.nan + x = XR.nan := by cases x <;> rfl
theorem add_nan (x : XR) : x + XR.nan = XR.nan := by cases x <;> rfl
theorem nan_sub (x : XR) : XR.nan - x = XR.nan := by cases x <;> rfl
theorem sub_nan (x : XR) : x - XR.nan = XR.nan := by cases x <;> rfl
theorem nan_mul (x : XR) : XR.nan * x = XR.nan := by cases x <;> rfl
theorem mul_nan (x : XR) : x * XR.nan = XR.nan := by cases x <;> rfl
theorem nan_div (x : XR) : XR.nan / x = XR.nan := by cases x <;> rfl
theorem div_nan (x : XR) : x / XR.nan = XR.nan := by cases x <;> rfl
theorem neg_nan : -XR.nan = XR.nan := rfl
theorem abs_nan : CReal.abs XR.nan = XR.nan := rfl
theorem sqrt_nan : CReal.sqrt XR.nan = XR.nan := rfl
theorem acos_nan : CReal.acos XR.nan = XR.nan := rfl
theorem sin_nan : CReal.sin XR.nan = XR.nan := rfl
theorem nan_lt (x : XR) : CReal.lt XR.nan x = false := by cases x <;> rfl
theorem lt_nan (x : XR) : CReal.lt x XR.nan = false := by cases x <;> rfl
theorem nan_gt (x : XR) : CReal.gt XR.nan x = false := by cases x <;> rfl

end Verif.XR
