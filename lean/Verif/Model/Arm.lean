import Verif.Model.Vectors

/-!
# Model of include/zsl/asm/arm/asm_arm_vectors.h

With `CONFIG_ZSL_PLATFORM_OPT == 2` these definitions replace those of src/vectors.c. They are written in C; none contains assembly.
-/

namespace Verif

open Out

variable {R : Type} [CReal R]

/-- asm_arm_vectors.h:22-36 `zsl_vec_add`. -/
def armVecAdd (v w x : Vec R) : Out (Int × Vec R) :=
  if v.sz ≠ w.sz ∨ v.sz ≠ x.sz then ok (-EINVAL, x)
  else do
    let d ← forN v.sz (fun i d => do
      let a ← rd v.data i
      let b ← rd w.data i
      wr d i (a + b)) x.data
    return (0, { x with data := d })

/-- asm_arm_vectors.h:44-51 `zsl_vec_scalar_add`. -/
def armVecScalarAdd (v : Vec R) (s : R) : Out (Int × Vec R) := do
  let d ← forN v.sz (fun i d => do
    let a ← rd d i
    wr d i (a + s)) v.data
  return (0, { v with data := d })

/-- asm_arm_vectors.h:59-66 `zsl_vec_scalar_mult`. -/
def armVecScalarMult (v : Vec R) (s : R) : Out (Int × Vec R) := do
  let d ← forN v.sz (fun i d => do
    let a ← rd d i
    wr d i (a * s)) v.data
  return (0, { v with data := d })

/-- asm_arm_vectors.h:74-86 `zsl_vec_scalar_div`. -/
def armVecScalarDiv (v : Vec R) (s : R) : Out (Int × Vec R) :=
  if CReal.eq s (lit 0) then ok (-EINVAL, v)
  else do
    let d ← forN v.sz (fun i d => do
      let a ← rd d i
      wr d i (a / s)) v.data
    return (0, { v with data := d })

end Verif
