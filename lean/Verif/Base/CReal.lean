import Mathlib.Data.Rat.Defs
import Mathlib.Algebra.Order.Field.Rat
import Verif.Base.Out

/-!
# The scalar type `zsl_real_t`

include/zsl/zsl.h:50-106 makes `zsl_real_t` either `float` or `double` and maps `ZSL_SQRT` etc. to the
matching libm function. The model is generic in the scalar type: `CReal R` only lists the
operations the C code uses and assumes no law about any of them. So a theorem proved for every `CReal R`
covers IEEE single and double precision with any rounding.
-/

namespace Verif

/-- Operations of `zsl_real_t` the code uses (include/zsl/zsl.h:50-106). No laws are assumed. -/
class CReal (R : Type) extends Add R, Sub R, Mul R, Div R, Neg R where
  /-- A C literal, or the conversion of an integer to `zsl_real_t`. -/
  lit : ℚ → R
  /-- `NAN` -/
  nan : R
  /-- `a < b` -/
  lt : R → R → Bool
  /-- `a <= b` -/
  le : R → R → Bool
  /-- `a == b` -/
  eq : R → R → Bool
  /-- `ZSL_ABS` -/
  abs : R → R
  /-- `ZSL_SQRT` -/
  sqrt : R → R
  /-- `ZSL_SIN` -/
  sin : R → R
  /-- `ZSL_COS` -/
  cos : R → R
  /-- `ZSL_TAN` -/
  tan : R → R
  /-- `ZSL_ASIN` -/
  asin : R → R
  /-- `ZSL_ACOS` -/
  acos : R → R
  /-- `ZSL_ATAN` -/
  atan : R → R
  /-- `ZSL_ATAN2` -/
  atan2 : R → R → R
  /-- `ZSL_EXP` -/
  exp : R → R
  /-- `ZSL_LOG` -/
  log : R → R
  /-- `ZSL_LOG10` -/
  log10 : R → R
  /-- `ZSL_POW` -/
  pow : R → R → R
  /-- `ZSL_FLOOR` -/
  floor : R → R
  /-- `ZSL_CEIL` -/
  ceil : R → R
  /-- `ZSL_ROUND` -/
  round : R → R
  /-- `ZSL_SINH` -/
  sinh : R → R
  /-- `ZSL_COSH` -/
  cosh : R → R
  /-- `ZSL_TANH` -/
  tanh : R → R
  /-- `ZSL_ERF` -/
  erf : R → R
  /-- `ZSL_FMA`: `a * b + c` -/
  fma : R → R → R → R
  /-- `ZSL_EXPM1` -/
  expm1 : R → R
  /-- Conversion of a real to an integer type: the truncated value, `none` if there is none (NaN, infinity).
  Whether the value fits the integer type is for the caller to check. -/
  trunc : R → Option Int

export CReal (lit)

namespace CReal
variable {R : Type} [CReal R]
/-- `a > b` -/
def gt (a b : R) : Bool := CReal.lt b a
/-- `a >= b` -/
def ge (a b : R) : Bool := CReal.le b a
/-- `a != b` -/
def ne (a b : R) : Bool := !CReal.eq a b
/-- An integer used as a `zsl_real_t`. -/
def ofNat (n : Nat) : R := lit (n : ℚ)
/-- An integer used as a `zsl_real_t`. -/
def ofInt (n : Int) : R := lit (n : ℚ)
end CReal

/-- errno.h: `EINVAL`. -/
def EINVAL : Int := 22
/-- errno.h: `ENOMEM`. -/
def ENOMEM : Int := 12
/-- errno.h: `EAGAIN`. -/
def EAGAIN : Int := 11
/-- errno.h: `ENOSYS` (Linux/newlib value 88). -/
def ENOSYS : Int := 88
/-- include/zsl/matrices.h: `EEIGENSIZE`. -/
def EEIGENSIZE : Int := 100
/-- include/zsl/matrices.h: `ECOMPLEXVAL`. -/
def ECOMPLEXVAL : Int := 101

end Verif
