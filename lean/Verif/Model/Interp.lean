import Verif.Base.CReal

/-!
# Model of src/interp.c

Output arguments are returned next to the return code; where the code leaves an output alone on some path, its old value is an argument.
`int` and `unsigned int` are 32 bits wide.
-/

namespace Verif

open Out

variable {R : Type} [CReal R]

/-- interp.h:40-43 `struct zsl_interp_xy`. -/
structure XY (R : Type) where
  x : R
  y : R

/-- interp.h:46-50 `struct zsl_interp_xyc`. -/
structure XYC (R : Type) where
  x : R
  y : R
  y2 : R

/-- Conversion of an unsigned value to `unsigned int`. interp.c:36-38, 71. -/
def toU32 (n : Nat) : Nat := n % 4294967296

/-- Conversion of an unsigned value to `int` (two's complement). interp.c:58, 84-90. -/
def toI32 (n : Nat) : Int := if toU32 n < 2147483648 then (toU32 n : Int) else (toU32 n : Int) - 4294967296

/-- interp.c:13-30 `zsl_interp_lerp`. -/
def interpLerp (v0 v1 t : R) : Int × R :=
  if CReal.lt t (lit 0) || CReal.gt t (lit 1) then (-EINVAL, CReal.nan)
  else (0, (lit 1 - t) * v0 + t * v1)

/-- interp.c:69-80, the bisection loop of `zsl_interp_find_x`. -/
def findXLoop (fuel : Nat) (xy : List (XY R)) (x : R) (order : Bool) (lo hi : Nat) : Out Nat :=
  if hi - lo > 1 then
    match fuel with
    | 0 => ub
    | fuel + 1 => do
      let mid := toU32 (hi + lo) / 2
      let p ← rd xy mid
      if (CReal.ge x p.x && order) || (CReal.le x p.x && !order) then findXLoop fuel xy x order mid hi
      else findXLoop fuel xy x order lo mid
  else ok lo

/-- interp.c:32-97 `zsl_interp_find_x`; returns the return code and `*idx`. -/
def interpFindX (xy : List (XY R)) (n : Nat) (x : R) : Out (Int × Int) :=
  if n < 2 then ok (-EINVAL, -1)
  else do
    let last ← rd xy (n - 1)
    let first ← rd xy 0
    let order := CReal.ge last.x first.x
    if (CReal.gt x last.x && order) || (CReal.lt x last.x && !order) then return (-EINVAL, toI32 n)
    else if (CReal.lt x first.x && order) || (CReal.gt x first.x && !order) then return (-EINVAL, -1)
    else do
      let lo ← findXLoop n xy x order 0 (toU32 n)
      if CReal.eq x first.x then return (0, 0)
      else if CReal.eq x last.x then return (0, toI32 (n - 2))
      else return (0, toI32 lo)

/-- `delta < 1E-6 && -delta < 1E-6` (interp.c:108, 163, 223). -/
def tooClose (delta : R) : Bool := CReal.lt delta (lit 1e-6) && CReal.lt (-delta) (lit 1e-6)

/-- interp.c:99-126 `zsl_interp_nn`; `y2` is the previous value of `*y2`, which the range error leaves alone. -/
def interpNn (xy1 xy3 : XY R) (x2 y2 : R) : Int × R :=
  if tooClose (xy3.x - xy1.x) then (-EINVAL, CReal.nan)
  else if CReal.lt x2 xy1.x || CReal.gt x2 xy3.x then (-EINVAL, y2)
  else (0, if CReal.ge x2 (xy1.x * lit 1.5) then xy3.y else xy1.y)

/-- `xy[i]` for a signed index. interp.c:143 and 204. -/
def rdI {α : Type} (b : List α) (i : Int) : Out α := if 0 ≤ i then rd b i.toNat else ub

/-- interp.c:128-152 `zsl_interp_nn_arr`. -/
def interpNnArr (xy : List (XY R)) (n : Nat) (x y : R) : Out (Int × R) := do
  let (rc, idx) ← interpFindX xy n x
  if rc ≠ 0 then return (rc, CReal.nan)
  else do
    let p ← rdI xy idx
    let q ← rdI xy (idx + 1)
    let (rc, y) := interpNn p q x y
    if rc ≠ 0 then return (rc, CReal.nan) else return (0, y)

/-- interp.c:154-187 `zsl_interp_lin_y`. -/
def interpLinY (xy1 xy3 : XY R) (x2 : R) : Int × R :=
  if tooClose (xy3.x - xy1.x) then (-EINVAL, CReal.nan)
  else if CReal.lt x2 xy1.x || CReal.gt x2 xy3.x then (-EINVAL, CReal.nan)
  else (0, ((x2 - xy1.x) * (xy3.y - xy1.y)) / (xy3.x - xy1.x) + xy1.y)

/-- interp.c:189-213 `zsl_interp_lin_y_arr`. -/
def interpLinYArr (xy : List (XY R)) (n : Nat) (x : R) : Out (Int × R) := do
  let (rc, idx) ← interpFindX xy n x
  if rc ≠ 0 then return (rc, CReal.nan)
  else do
    let p ← rdI xy idx
    let q ← rdI xy (idx + 1)
    let (rc, y) := interpLinY p q x
    if rc ≠ 0 then return (rc, CReal.nan) else return (0, y)

/-- interp.c:215-251 `zsl_interp_lin_x`. -/
def interpLinX (xy1 xy3 : XY R) (y2 : R) : Int × R :=
  if tooClose (xy3.x - xy1.x) then (-EINVAL, CReal.nan)
  else
    let min := if CReal.lt xy1.y xy3.y then xy1.y else xy3.y
    let max := if CReal.lt xy1.y xy3.y then xy3.y else xy1.y
    if CReal.lt y2 min || CReal.gt y2 max then (-EINVAL, CReal.nan)
    else (0, ((xy3.y - y2) * xy1.x + (y2 - xy1.y) * xy3.x) / (xy3.y - xy1.y))

/-- interp.c:278-284, the start of the elimination in `zsl_interp_cubic_calc`; returns the table and `u`. -/
def cubicStart (xyc : List (XYC R)) (u : List R) (yp1 : R) : Out (List (XYC R) × List R) := do
  let p0 ← rd xyc 0
  if CReal.gt yp1 (lit 0.99e30) then do
    let u ← wr u 0 (lit 0)
    let xyc ← wr xyc 0 { p0 with y2 := lit 0 }
    return (xyc, u)
  else do
    let xyc ← wr xyc 0 { p0 with y2 := lit (-0.5) }
    let p0 ← rd xyc 0
    let p1 ← rd xyc 1
    let u ← wr u 0 ((lit 3 / (p1.x - p0.x)) * ((p1.y - p0.y) / (p1.x - p0.x) - yp1))
    return (xyc, u)

/-- interp.c:286-296, one pass of the forward elimination. -/
def cubicForward (i : Nat) (s : List (XYC R) × List R) : Out (List (XYC R) × List R) := do
  let (xyc, u) := s
  let pm ← rd xyc (i - 1)
  let pi ← rd xyc i
  let pp ← rd xyc (i + 1)
  let a := pi.x - pm.x
  let b := pp.x - pm.x
  let sigma := a / b
  let p := sigma * pm.y2 + lit 2
  let xyc ← wr xyc i { pi with y2 := (sigma - lit 1) / p }
  let u ← wr u i ((pp.y - pi.y) / (pp.x - pi.x) - (pi.y - pm.y) / a)
  let ui ← rd u i
  let um ← rd u (i - 1)
  let u ← wr u i ((lit 6 * ui / b - sigma * um) / p)
  return (xyc, u)

/-- interp.c:298-307, the last equation. -/
def cubicEnd (n : Nat) (xyc : List (XYC R)) (u : List R) (ypn : R) : Out (List (XYC R)) := do
  let pl ← rd xyc (n - 1)
  let pk ← rd xyc (n - 2)
  let ul ← rd u (n - 2)
  let (qn, un) := if CReal.gt ypn (lit 0.99e30) then ((lit 0 : R), (lit 0 : R))
    else (lit 0.5, (lit 3 / (pl.x - pk.x)) * (ypn - (pl.y - pk.y) / (pl.x - pk.x)))
  wr xyc (n - 1) { pl with y2 := (un - qn * ul) / (qn * pk.y2 + lit 1) }

/-- interp.c:309-311, one pass of the back substitution, for index `k`. -/
def cubicBack (u : List R) (k : Nat) (xyc : List (XYC R)) : Out (List (XYC R)) := do
  let p ← rd xyc k
  let q ← rd xyc (k + 1)
  let uk ← rd u k
  wr xyc k { p with y2 := p.y2 * q.y2 + uk }

/-- interp.c:253-318 `zsl_interp_cubic_calc`. `alloc` says whether `k_malloc` succeeds, `junk` is what the new memory contains. -/
def interpCubicCalc (alloc : Bool) (junk : Nat → R) (xyc : List (XYC R)) (n : Nat) (yp1 ypn : R) : Out (Int × List (XYC R)) :=
  if n < 3 then ok (-EINVAL, xyc)
  else if !alloc then ok (-ENOMEM, xyc)
  else do
    let (xyc, u) ← cubicStart xyc ((List.range (n - 1)).map junk) yp1
    let (xyc, u) ← forN (n - 2) (fun i' s => cubicForward (i' + 1) s) (xyc, u)
    let xyc ← cubicEnd n xyc u ypn
    let xyc ← forN (n - 1) (fun k' xyc => cubicBack u (n - 2 - k') xyc) xyc
    return (0, xyc)

/-- interp.c:352-374, the bisection in `zsl_interp_cubic_arr`; the midpoint is computed in `int`. -/
def cubicSearch (fuel : Nat) (xyc : List (XYC R)) (x : R) (klo khi : Nat) : Out (Nat × Nat) :=
  if khi - klo > 1 then
    match fuel with
    | 0 => ub
    | fuel + 1 =>
      if khi + klo ≥ 2147483648 then ub
      else do
        let k := (khi + klo) / 2
        let p ← rd xyc k
        if CReal.gt p.x x then cubicSearch fuel xyc x klo k else cubicSearch fuel xyc x k khi
  else ok (klo, khi)

/-- interp.c:320-399 `zsl_interp_cubic_arr`; `y` is the previous value of `*y`, which the error paths leave alone. The static variables
are overwritten at the start of every call, so the result of a call that is not interrupted does not depend on them; for calls by several threads
see Model/Threads.lean. -/
def interpCubicArr (xyc : List (XYC R)) (n : Nat) (x y : R) : Out (Int × R) :=
  if n < 3 then ok (-EINVAL, y)
  else do
    let p0 ← rd xyc 0
    let p1 ← rd xyc 1
    let (klo, khi) ← (if CReal.le p0.x x && CReal.gt p1.x x then ok (0, 1) else cubicSearch n xyc x 0 (n - 1))
    let l ← rd xyc klo
    let h ← rd xyc khi
    let hh := h.x - l.x
    if CReal.eq hh (lit 0) then return (-EINVAL, y)
    else
      let a := (h.x - x) / hh
      let b := (x - l.x) / hh
      return (0, a * l.y + b * h.y + ((a * a * a - a) * l.y2 + (b * b * b - b) * h.y2) * (hh * hh) / lit 6)

end Verif
