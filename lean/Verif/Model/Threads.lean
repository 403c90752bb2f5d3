import Verif.Model.Interp

/-!
# Calls of `zsl_interp_cubic_arr` by several threads

`zsl_interp_cubic_arr` is the only function of the library, apart from the fusion filters (Model/Drivers.lean), which writes static variables. All
other functions work on their arguments and on their stack, so that calls by several threads on different objects cannot meet. Here a call is cut
into steps such that each step makes at most one access to the static variables, and a scheduler may switch to another thread between any two
steps. Accesses to the static variables are taken to be atomic and in program order, which is the best that an application can hope for: in C11 a
data race is undefined behaviour altogether.
-/

namespace Verif

open Out

variable {R : Type} [CReal R]

/-- interp.c:328-329: the static variables `pklo` and `pkhi`. -/
structure CubicStatics where
  lo : Nat
  hi : Nat

/-- The arguments of a call. interp.c:320-321. -/
structure CubicArgs (R : Type) where
  xyc : List (XYC R)
  n : Nat
  x : R
  y : R

/-- The points between the steps of a call, with the values of `klo` and `khi` where they are set. interp.c:320-399. -/
inductive CubicPc (R : Type) where
  | start
  | setHi
  | guard
  | testLo
  | testHi
  | useLo
  | useHi (klo : Nat)
  | search
  | saveLo (klo khi : Nat)
  | saveHi (klo khi : Nat)
  | eval (klo khi : Nat)
  | done (rc : Int) (y : R)

/-- interp.c:320-399 `zsl_interp_cubic_arr`, one step. The bisection and the evaluation do not access the static variables and are one step each. -/
def cubicStep (c : CubicArgs R) (v : CubicStatics) : CubicPc R → Out (CubicStatics × CubicPc R)
  | .start => ok ({ v with lo := 0 }, .setHi)
  | .setHi => ok ({ v with hi := 1 }, .guard)
  | .guard => if c.n < 3 then ok (v, .done (-EINVAL) c.y) else ok (v, .testLo)
  | .testLo => do
    let p ← rd c.xyc v.lo
    if CReal.le p.x c.x then return (v, .testHi) else return (v, .search)
  | .testHi => do
    let p ← rd c.xyc v.hi
    if CReal.gt p.x c.x then return (v, .useLo) else return (v, .search)
  | .useLo => ok (v, .useHi v.lo)
  | .useHi klo => ok (v, .eval klo v.hi)
  | .search => do
    let (klo, khi) ← cubicSearch c.n c.xyc c.x 0 (c.n - 1)
    return (v, .saveLo klo khi)
  | .saveLo klo khi => ok ({ v with lo := klo }, .saveHi klo khi)
  | .saveHi klo khi => ok ({ v with hi := khi }, .eval klo khi)
  | .eval klo khi => do
    let l ← rd c.xyc klo
    let h ← rd c.xyc khi
    let hh := h.x - l.x
    if CReal.eq hh (lit 0) then return (v, .done (-EINVAL) c.y)
    else
      let a := (h.x - c.x) / hh
      let b := (c.x - l.x) / hh
      return (v, .done 0 (a * l.y + b * h.y + ((a * a * a - a) * l.y2 + (b * b * b - b) * h.y2) * (hh * hh) / lit 6))
  | .done rc y => ok (v, .done rc y)

/-- A schedule: which thread makes the next step. Thread `i` is in a call with the arguments `c i`, at the point `p i`. interp.c:320-399. -/
def cubicRun (c : Nat → CubicArgs R) : CubicStatics → (Nat → CubicPc R) → List Nat → Out (CubicStatics × (Nat → CubicPc R))
  | v, p, [] => ok (v, p)
  | v, p, i :: s => do
    let (v, pi) ← cubicStep (c i) v (p i)
    cubicRun c v (Function.update p i pi) s

end Verif
