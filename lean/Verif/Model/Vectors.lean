import Verif.Base.CReal

/-!
# Model of src/vectors.c

Configuration: `CONFIG_ZSL_BOUNDS_CHECKS=y`, generic C code (no ARM assembly). `size_t` has 64 bits.
`zsl_vec_print` is in `Model/Print.lean`.
-/

namespace Verif

open Out

/-- Number of values of `size_t`. The type of vectors.h:42. -/
@[irreducible] def SIZE_MOD : Nat := 2 ^ 64

theorem SIZE_MOD_eq : SIZE_MOD = 18446744073709551616 := by
  unfold SIZE_MOD
  rfl

/-- `a + b` in `size_t`. For example vectors.c:42-68. -/
def szAdd (a b : Nat) : Nat := (a + b) % SIZE_MOD

/-- `a - b` in `size_t`, for two `size_t` values: it wraps around when `a < b`. For example vectors.c:42-68. -/
def szSub (a b : Nat) : Nat := if b ≤ a then a - b else SIZE_MOD - (b - a)

theorem szSub_le {a b : Nat} (h : b ≤ a) : szSub a b = a - b := if_pos h

/-- `struct zsl_vec` (include/zsl/vectors.h:40-45): `sz` elements are in use, `data` is the whole buffer the
pointer points into. -/
structure Vec (R : Type) where
  sz : Nat
  data : List R
deriving DecidableEq, Repr

namespace Vec
variable {R : Type}

/-- The buffer is at least as large as `sz` says. For the structure of vectors.h:40-45. -/
def WF (v : Vec R) : Prop := v.sz ≤ v.data.length

/-- The elements of the vector. vectors.h:40-45. -/
def vals (v : Vec R) : List R := v.data.take v.sz

/-- Local `ZSL_VECTOR_DEF(name, n)` or `zsl_real_t xdat[n]` (include/zsl/vectors.h:52-57): `n` uninitialised cells. -/
def uninit (junk : Nat → R) (n : Nat) : Vec R := ⟨n, (List.range n).map junk⟩

end Vec

variable {R : Type} [CReal R]

/-- vectors.c:19-24 `zsl_vec_init`: `memset` of the first `sz` cells to zero. -/
def vecInit (v : Vec R) : Out (Int × Vec R) := do
  let d ← forN v.sz (fun i d => wr d i (lit 0)) v.data
  return (0, { v with data := d })

/-- `memcpy(dst + doff, src + soff, n)` for cells of a real buffer, in order of increasing index.
Used for vectors.c:28, 36, 65 (offsets there are in elements). The buffers do not overlap. -/
def memcpyAt {α : Type} (dst : List α) (doff : Nat) (src : List α) (soff : Nat) (n : Nat) :
    Out (List α) :=
  forN n (fun i d => do
    let x ← rd src (soff + i)
    wr d (doff + i) x) dst

/-- vectors.c:26-31 `zsl_vec_from_arr`. -/
def vecFromArr (v : Vec R) (a : List R) : Out (Int × Vec R) := do
  let d ← memcpyAt v.data 0 a 0 v.sz
  return (0, { v with data := d })

/-- vectors.c:33-40 `zsl_vec_copy`: the destination takes over the size of the source. -/
def vecCopy (vdest vsrc : Vec R) : Out (Int × Vec R) := do
  let d ← memcpyAt vdest.data 0 vsrc.data 0 vsrc.sz
  return (0, ⟨vsrc.sz, d⟩)

/-- vectors.c:42-68 `zsl_vec_get_subset`. `offset + len` is computed in `size_t`. -/
def vecGetSubset (v : Vec R) (offset len : Nat) (vsub : Vec R) : Out (Int × Vec R) :=
  if offset ≥ v.sz then ok (-EINVAL, vsub)
  else
    let len := if szAdd offset len ≥ v.sz then v.sz - offset else len
    if vsub.sz < len then ok (-EINVAL, vsub)
    else do
      let sz := if vsub.sz > len then len else vsub.sz
      let d ← memcpyAt vsub.data 0 v.data offset len
      return (0, ⟨sz, d⟩)

/-- vectors.c:71-85 `zsl_vec_add`. -/
def vecAdd (v w x : Vec R) : Out (Int × Vec R) :=
  if v.sz ≠ w.sz ∨ v.sz ≠ x.sz then ok (-EINVAL, x)
  else do
    let d ← forN v.sz (fun i d => do
      let a ← rd v.data i
      let b ← rd w.data i
      wr d i (a + b)) x.data
    return (0, { x with data := d })

/-- vectors.c:88-102 `zsl_vec_sub`. -/
def vecSub (v w x : Vec R) : Out (Int × Vec R) :=
  if v.sz ≠ w.sz ∨ v.sz ≠ x.sz then ok (-EINVAL, x)
  else do
    let d ← forN v.sz (fun i d => do
      let a ← rd v.data i
      let b ← rd w.data i
      wr d i (a - b)) x.data
    return (0, { x with data := d })

/-- vectors.c:104-111 `zsl_vec_neg`. -/
def vecNeg (v : Vec R) : Out (Int × Vec R) := do
  let d ← forN v.sz (fun i d => do
    let a ← rd d i
    wr d i (-a)) v.data
  return (0, { v with data := d })

/-- vectors.c:113-141 `zsl_vec_sum`; `v` is the array of the `n` vectors. -/
def vecSum (v : List (Vec R)) (n : Nat) (w : Vec R) : Out (Int × Vec R) :=
  if n = 0 then ok (-EINVAL, w)
  else do
    let v0 ← rd v 0
    let szLast := v0.sz
    let chk ← forRet n (fun i (_ : Unit) => do
      let vi ← rd v i
      if szLast ≠ vi.sz then return Ctl.ret (-EINVAL) else return Ctl.next ()) ()
    match chk with
    | .ret rc => return (rc, w)
    | .next _ => do
      let d ← forN n (fun i d => do
        let vi ← rd v i
        forN szLast (fun j d => do
          let a ← rd d j
          let b ← rd vi.data j
          wr d j (a + b)) d) w.data
      return (0, ⟨szLast, d⟩)

/-- vectors.c:144-151 `zsl_vec_scalar_add`. -/
def vecScalarAdd (v : Vec R) (s : R) : Out (Int × Vec R) := do
  let d ← forN v.sz (fun i d => do
    let a ← rd d i
    wr d i (a + s)) v.data
  return (0, { v with data := d })

/-- vectors.c:155-162 `zsl_vec_scalar_mult`. -/
def vecScalarMult (v : Vec R) (s : R) : Out (Int × Vec R) := do
  let d ← forN v.sz (fun i d => do
    let a ← rd d i
    wr d i (a * s)) v.data
  return (0, { v with data := d })

/-- vectors.c:166-178 `zsl_vec_scalar_div`. -/
def vecScalarDiv (v : Vec R) (s : R) : Out (Int × Vec R) :=
  if CReal.eq s (lit 0) then ok (-EINVAL, v)
  else do
    let d ← forN v.sz (fun i d => do
      let a ← rd d i
      wr d i (a / s)) v.data
    return (0, { v with data := d })

/-- vectors.c:199-217 `zsl_vec_dot`; `d` is the previous value of `*d`. -/
def vecDot (v w : Vec R) (d : R) : Out (Int × R) :=
  if v.sz ≠ w.sz then ok (-EINVAL, d)
  else do
    let res ← forN v.sz (fun i res => do
      let a ← rd v.data i
      let b ← rd w.data i
      return (res + a * b)) (lit 0)
    return (0, res)

/-- vectors.c:303-310 `zsl_vec_sum_of_sqrs`. -/
def vecSumOfSqrs (v : Vec R) : Out R := do
  let (_, d) ← vecDot v v (lit 0)
  return d

/-- vectors.c:219-228 `zsl_vec_norm` of a non-NULL vector. -/
def vecNorm (v : Vec R) : Out R := do
  let s ← vecSumOfSqrs v
  return CReal.sqrt s

/-- vectors.c:219-228 `zsl_vec_norm` of a possibly NULL pointer. -/
def vecNormP (v : Option (Vec R)) : Out R :=
  match v with
  | none => ok (lit 0)
  | some v => vecNorm v

/-- vectors.c:181-197 `zsl_vec_dist`. -/
def vecDist (v w : Vec R) : Out R := do
  let (rc, x) ← vecSub v w ⟨v.sz, List.replicate v.sz (lit 0)⟩
  if rc ≠ 0 then return CReal.nan else vecNorm x

/-- vectors.c:230-248 `zsl_vec_project` with three different vectors. -/
def vecProject (u v w : Vec R) : Out (Int × Vec R) :=
  if v.sz ≠ w.sz ∨ v.sz ≠ u.sz then ok (-EINVAL, w)
  else do
    let (_, w) ← vecCopy w u
    let (_, p) ← vecDot v u (lit 0)
    let (_, t) ← vecDot u u (lit 0)
    let (_, w) ← vecScalarMult w (p / t)
    return (0, w)

/-- vectors.c:230-248 `zsl_vec_project(u, v, u)`: the output is the vector projected onto, so the
copy on line 242 copies the vector onto itself. -/
def vecProjectOnto (u v : Vec R) : Out (Int × Vec R) :=
  if v.sz ≠ u.sz ∨ v.sz ≠ u.sz then ok (-EINVAL, u)
  else do
    let (_, p) ← vecDot v u (lit 0)
    let (_, t) ← vecDot u u (lit 0)
    let (_, u) ← vecScalarMult u (p / t)
    return (0, u)

/-- vectors.c:250-271 `zsl_vec_to_unit`. -/
def vecToUnit (v : Vec R) : Out (Int × Vec R) := do
  let norm ← vecNorm v
  if CReal.ne norm (lit 0) then do
    let (_, v) ← vecScalarMult v (lit 1 / norm)
    return (0, v)
  else do
    let (_, v) ← vecInit v
    let d ← wr v.data 0 (lit 1)
    return (0, { v with data := d })

/-- vectors.c:273-301 `zsl_vec_cross` with an output different from the inputs. -/
def vecCross (v w c : Vec R) : Out (Int × Vec R) :=
  if v.sz ≠ 3 ∨ w.sz ≠ 3 ∨ c.sz ≠ 3 then ok (-EINVAL, c)
  else do
    let v0 ← rd v.data 0
    let v1 ← rd v.data 1
    let v2 ← rd v.data 2
    let w0 ← rd w.data 0
    let w1 ← rd w.data 1
    let w2 ← rd w.data 2
    let d ← wr c.data 0 (v1 * w2 - v2 * w1)
    let d ← wr d 1 (v2 * w0 - v0 * w2)
    let d ← wr d 2 (v0 * w1 - v1 * w0)
    return (0, { c with data := d })

/-- vectors.c:273-301 `zsl_vec_cross(v, w, v)`: the output is the first input, so line 297 and 298 read
what line 296 and 297 have just written. -/
def vecCrossInPlace (v w : Vec R) : Out (Int × Vec R) :=
  if v.sz ≠ 3 ∨ w.sz ≠ 3 ∨ v.sz ≠ 3 then ok (-EINVAL, v)
  else do
    let w0 ← rd w.data 0
    let w1 ← rd w.data 1
    let w2 ← rd w.data 2
    let v1 ← rd v.data 1
    let v2 ← rd v.data 2
    let d ← wr v.data 0 (v1 * w2 - v2 * w1)
    let v2 ← rd d 2
    let v0 ← rd d 0
    let d ← wr d 1 (v2 * w0 - v0 * w2)
    let v0 ← rd d 0
    let v1 ← rd d 1
    let d ← wr d 2 (v0 * w1 - v1 * w0)
    return (0, { v with data := d })

/-- vectors.c:312-332 `zsl_vec_mean`. -/
def vecMean (v : List (Vec R)) (n : Nat) (m : Vec R) : Out (Int × Vec R) := do
  let v0 ← rd v 0
  if m.sz ≠ v0.sz then return (-EINVAL, m)
  else do
    let (rc, m) ← vecSum v n m
    if rc ≠ 0 then return (rc, m)
    else do
      let (_, m) ← vecScalarMult m (lit 1 / CReal.ofNat n)
      return (0, m)

/-- vectors.c:334-349 `zsl_vec_ar_mean`; `m` is the previous value of `*m`. -/
def vecArMean (v : Vec R) (m : R) : Out (Int × R) :=
  if v.sz < 1 then ok (-EINVAL, m)
  else do
    let m ← forN v.sz (fun i m => do
      let a ← rd v.data i
      return (m + a)) (lit 0)
    return (0, m / CReal.ofNat v.sz)

/-- vectors.c:357-363, the swap loop of `zsl_vec_rev`. -/
def vecRevLoop (d : List R) (start stop : Nat) : Out (List R) :=
  if start < stop then do
    let t ← rd d start
    let e ← rd d stop
    let d ← wr d start e
    let d ← wr d stop t
    vecRevLoop d (start + 1) (stop - 1)
  else ok d
termination_by stop - start

/-- vectors.c:351-366 `zsl_vec_rev`; `sz - 1` is computed in `size_t`. -/
def vecRev (v : Vec R) : Out (Int × Vec R) := do
  let d ← vecRevLoop v.data 0 (szSub v.sz 1)
  return (0, { v with data := d })

/-- vectors.c:368-385 `zsl_vec_zte`. -/
def vecZte (v : Vec R) : Out (Int × Vec R) := do
  let (d, _) ← forN v.sz (fun g (s : List R × Nat) => do
    let (d, x) := s
    let a ← rd d (g - x)
    if (CReal.ge a (lit 0) && CReal.lt a (lit 1e-6)) ||
        (CReal.le a (lit 0) && CReal.gt a (lit 1e-6)) then do
      -- for (p = g - x; p < sz - 1; p++), shifted to start at 0
      let d ← forN (v.sz - 1 - (g - x)) (fun k d => do
        let b ← rd d (g - x + k + 1)
        wr d (g - x + k) b) d
      let d ← wr d (v.sz - 1) (lit 0)
      return (d, x + 1)
    else return (d, x)) (v.data, 0)
  return (0, { v with data := d })

/-- vectors.c:387-403 `zsl_vec_is_equal`. -/
def vecIsEqual (v w : Vec R) (eps : R) : Out Bool :=
  if v.sz ≠ w.sz then ok false
  else do
    let c ← forRet v.sz (fun i (_ : Unit) => do
      let a ← rd v.data i
      let b ← rd w.data i
      let c := a - b
      if CReal.ge c eps || CReal.ge (-c) eps then return Ctl.ret false else return Ctl.next ()) ()
    match c with
    | .ret r => return r
    | .next _ => return true

/-- vectors.c:405-414 `zsl_vec_is_nonneg`. -/
def vecIsNonneg (v : Vec R) : Out Bool := do
  let c ← forRet v.sz (fun i (_ : Unit) => do
    let a ← rd v.data i
    if CReal.lt a (lit 0) then return Ctl.ret false else return Ctl.next ()) ()
  match c with
  | .ret r => return r
  | .next _ => return true

/-- vectors.c:416-429 `zsl_vec_contains`. Simplification: the `int` counter does not overflow
(`sz` is below 2^31). -/
def vecContains (v : Vec R) (val eps : R) : Out Nat :=
  forN v.sz (fun i count => do
    let a ← rd v.data i
    let c := a - val
    return (if CReal.lt c eps && CReal.lt (-c) eps then count + 1 else count)) 0

/-- vectors.c:451-453, the upward scan. The element is read before the bound is tested. -/
def qsUp (d : List R) (p high i : Nat) : Out Nat := do
  let x ← rd d i
  let y ← rd d p
  if CReal.le x y = true ∧ i ≤ high then qsUp d p high (i + 1) else return i
termination_by high + 1 - i

/-- vectors.c:454-456, the downward scan. Going below index 0 wraps around, and the next read is out of bounds. -/
def qsDown (d : List R) (p low : Nat) (j : Nat) : Out Nat := do
  let x ← rd d j
  let y ← rd d p
  if CReal.gt x y = true ∧ low ≤ j then
    match j with
    | 0 => ub
    | j + 1 => qsDown d p low j
  else return j
termination_by j

/-- vectors.c:450-462, the partition loop. Running out of `fuel` counts as `ub`. -/
def qsPartition (fuel : Nat) (d : List R) (p low high i j : Nat) : Out (List R × Nat × Nat) :=
  match fuel with
  | 0 => ub
  | fuel + 1 =>
    if i < j then do
      let i ← qsUp d p high i
      let j ← qsDown d p low j
      if i < j then do
        let t ← rd d i
        let x ← rd d j
        let d ← wr d i x
        let d ← wr d j t
        qsPartition fuel d p low high i j
      else qsPartition fuel d p low high i j
    else ok (d, i, j)

/-- vectors.c:440-473 `zsl_vec_quicksort` on the buffer `d`. Running out of `fuel` counts as `ub`. -/
def vecQuicksort (fuel : Nat) (d : List R) (low high : Nat) : Out (List R) :=
  match fuel with
  | 0 => ub
  | fuel + 1 =>
    if low < high then do
      let (d, i, j) ← qsPartition (fuel + 1) d low low high low high
      let t ← rd d j
      let x ← rd d low
      let d ← wr d j x
      let d ← wr d low t
      let d ← vecQuicksort fuel d low (szSub i 1)
      vecQuicksort fuel d (szAdd j 1) high
    else ok d

/-- vectors.c:485-493, copying `v` into the zeroed buffer `u` without repeated values. -/
def sortDedup (v : Vec R) (u : Vec R) : Out (List R × Nat) :=
  forN v.sz (fun j (s : List R × Nat) => do
    let (ud, count) := s
    let a ← rd v.data j
    if CReal.ge a (lit 1e-5) || CReal.le a (lit 1e-5) then do
      let c ← vecContains ⟨u.sz, ud⟩ a (lit 1e-5)
      if c = 0 then do
        let ud ← wr ud count a
        return (ud, count + 1)
      else return (ud, count)
    else return (ud, count)) (u.data, 0)

/-- vectors.c:475-513 `zsl_vec_sort`. `extra` are the readable cells that happen to lie behind the local buffer `u`
on the stack (none in strict C: then touching them is undefined behaviour). `fuel` bounds the quicksort recursion. -/
def vecSort (fuel : Nat) (extra : List R) (v w : Vec R) : Out (Int × Vec R) := do
  let u : Vec R := ⟨v.sz, List.replicate v.sz (lit 0) ++ extra⟩
  let (ud, count) ← sortDedup v u
  let z ← vecContains v (lit 0) (lit 1e-5)
  let count := if z > 0 then count + 1 else count
  let ud ← vecQuicksort fuel ud 0 (szSub count 1)
  let (wd, _) ← forN count (fun i (s : List R × Nat) => do
    let a ← rd ud i
    let c ← vecContains v a (lit 1e-5)
    forN c (fun _ (s : List R × Nat) => do
      let (wd, count2) := s
      let wd ← wr wd count2 a
      return (wd, count2 + 1)) s) (w.data, 0)
  return (0, { w with data := wd })

end Verif
