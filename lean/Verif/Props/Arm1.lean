import Verif.Model.Arm
import Verif.Props.Vectors1

/-!
# The platform specific vector functions (C123)

Each is specified directly, in the words used for the generic function in C01 and C02, and hence agrees with it.
-/

namespace Verif

open Out

variable {R : Type} [CReal R]

/-- C123. `zsl_vec_add` of the ARM build: sums the elements, refuses different sizes. -/
theorem arm_vec_add_correct (v w x : Vec R) (hv : v.WF) (hw : w.WF) (hx : x.WF) :
    armVecAdd v w x =
      if v.sz = w.sz ∧ v.sz = x.sz then ok (0, ⟨x.sz, List.zipWith (· + ·) v.vals w.vals ++ x.data.drop x.sz⟩)
      else ok (-EINVAL, x) := vec_add_correct v w x hv hw hx

/-- C123. `zsl_vec_scalar_add` of the ARM build. -/
theorem arm_vec_scalar_add_correct (v : Vec R) (s : R) (hv : v.WF) :
    armVecScalarAdd v s = ok (0, ⟨v.sz, v.vals.map (· + s) ++ v.data.drop v.sz⟩) := vec_scalar_add_correct v s hv

/-- C123. `zsl_vec_scalar_mult` of the ARM build. -/
theorem arm_vec_scalar_mult_correct (v : Vec R) (s : R) (hv : v.WF) :
    armVecScalarMult v s = ok (0, ⟨v.sz, v.vals.map (· * s) ++ v.data.drop v.sz⟩) := vec_scalar_mult_correct v s hv

/-- C123. `zsl_vec_scalar_div` of the ARM build: division by zero is refused and changes nothing. -/
theorem arm_vec_scalar_div_correct (v : Vec R) (s : R) (hv : v.WF) :
    armVecScalarDiv v s = if CReal.eq s (lit 0) then ok (-EINVAL, v) else ok (0, ⟨v.sz, v.vals.map (· / s) ++ v.data.drop v.sz⟩) :=
  vec_scalar_div_correct v s hv

/-- C123. Both builds give the same outcome for every call, including undefined behaviour for sizes beyond the buffers. -/
theorem arm_vec_same (v w x : Vec R) (s : R) : armVecAdd v w x = vecAdd v w x ∧ armVecScalarAdd v s = vecScalarAdd v s ∧
    armVecScalarMult v s = vecScalarMult v s ∧ armVecScalarDiv v s = vecScalarDiv v s := ⟨rfl, rfl, rfl, rfl⟩

/-- Non-vacuity: two elements. -/
example (a b c d e f s : R) : armVecAdd ⟨2, [a, b]⟩ ⟨2, [c, d]⟩ ⟨2, [e, f]⟩ = ok (0, ⟨2, [a + c, b + d]⟩) ∧
    armVecScalarMult ⟨2, [a, b]⟩ s = ok (0, ⟨2, [a * s, b * s]⟩) := ⟨rfl, rfl⟩

end Verif
