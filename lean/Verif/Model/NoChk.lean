import Verif.Model.MatDecomp

/-!
# The vector and matrix functions with CONFIG_ZSL_BOUNDS_CHECKS=n

`namespace NoChk` repeats the functions of Model/Vectors.lean, Model/Matrices.lean and Model/MatDecomp.lean that contain a block
under `#if CONFIG_ZSL_BOUNDS_CHECKS` or call such a function, with these blocks removed and nothing else changed. Inside the namespace
a name stands for the unchecked version if there is one. Functions that are not repeated here are the same with checks on and off.
An index that wraps around in `size_t` counts as outside the buffer.
-/

namespace Verif

open Out

namespace NoChk

variable {R : Type} [CReal R]

/-! ### vectors.c -/

/-- vectors.c:42-68 `zsl_vec_get_subset`. The cut of `len` to the end of the vector is one of the checks. Bounds checks off. -/
def vecGetSubset (v : Vec R) (offset len : Nat) (vsub : Vec R) : Out (Int × Vec R) := do
  let sz := if vsub.sz > len then len else vsub.sz
  let d ← memcpyAt vsub.data 0 v.data offset len
  return (0, ⟨sz, d⟩)

/-- vectors.c:71-85 `zsl_vec_add`. Bounds checks off. -/
def vecAdd (v w x : Vec R) : Out (Int × Vec R) := do
  let d ← forN v.sz (fun i d => do
    let a ← rd v.data i
    let b ← rd w.data i
    wr d i (a + b)) x.data
  return (0, { x with data := d })

/-- vectors.c:88-102 `zsl_vec_sub`. Bounds checks off. -/
def vecSub (v w x : Vec R) : Out (Int × Vec R) := do
  let d ← forN v.sz (fun i d => do
    let a ← rd v.data i
    let b ← rd w.data i
    wr d i (a - b)) x.data
  return (0, { x with data := d })

/-- vectors.c:113-141 `zsl_vec_sum`; `v` is the array of the `n` vectors. Bounds checks off. -/
def vecSum (v : List (Vec R)) (n : Nat) (w : Vec R) : Out (Int × Vec R) :=
  if n = 0 then ok (-EINVAL, w)
  else do
    let v0 ← rd v 0
    let szLast := v0.sz
    let d ← forN n (fun i d => do
      let vi ← rd v i
      forN szLast (fun j d => do
        let a ← rd d j
        let b ← rd vi.data j
        wr d j (a + b)) d) w.data
    return (0, ⟨szLast, d⟩)

/-- vectors.c:199-217 `zsl_vec_dot`; `d` is the previous value of `*d`. Bounds checks off. -/
def vecDot (v w : Vec R) (_d : R) : Out (Int × R) := do
  let res ← forN v.sz (fun i res => do
    let a ← rd v.data i
    let b ← rd w.data i
    return (res + a * b)) (lit 0)
  return (0, res)

/-- vectors.c:303-310 `zsl_vec_sum_of_sqrs`. Bounds checks off. -/
def vecSumOfSqrs (v : Vec R) : Out R := do
  let (_, d) ← vecDot v v (lit 0)
  return d

/-- vectors.c:219-228 `zsl_vec_norm` of a non-NULL vector. Bounds checks off. -/
def vecNorm (v : Vec R) : Out R := do
  let s ← vecSumOfSqrs v
  return CReal.sqrt s

/-- vectors.c:181-197 `zsl_vec_dist`. Bounds checks off. -/
def vecDist (v w : Vec R) : Out R := do
  let (rc, x) ← vecSub v w ⟨v.sz, List.replicate v.sz (lit 0)⟩
  if rc ≠ 0 then return CReal.nan else vecNorm x

/-- vectors.c:230-248 `zsl_vec_project` with three different vectors. Bounds checks off. -/
def vecProject (u v w : Vec R) : Out (Int × Vec R) := do
  let (_, w) ← vecCopy w u
  let (_, p) ← vecDot v u (lit 0)
  let (_, t) ← vecDot u u (lit 0)
  let (_, w) ← vecScalarMult w (p / t)
  return (0, w)

/-- vectors.c:230-248 `zsl_vec_project(u, v, u)`: the output is the vector projected onto, so the
copy on line 242 copies the vector onto itself. Bounds checks off. -/
def vecProjectOnto (u v : Vec R) : Out (Int × Vec R) := do
  let (_, p) ← vecDot v u (lit 0)
  let (_, t) ← vecDot u u (lit 0)
  let (_, u) ← vecScalarMult u (p / t)
  return (0, u)

/-- vectors.c:250-271 `zsl_vec_to_unit`. Bounds checks off. -/
def vecToUnit (v : Vec R) : Out (Int × Vec R) := do
  let norm ← vecNorm v
  if CReal.ne norm (lit 0) then do
    let (_, v) ← vecScalarMult v (lit 1 / norm)
    return (0, v)
  else do
    let (_, v) ← vecInit v
    let d ← wr v.data 0 (lit 1)
    return (0, { v with data := d })

/-- vectors.c:273-301 `zsl_vec_cross` with an output different from the inputs. Bounds checks off. -/
def vecCross (v w c : Vec R) : Out (Int × Vec R) := do
  let v0 ← rd v.data 0
  let v1 ← rd v.data 1
  let v2 ← rd v.data 2
  let w0 ← rd w.data 0
  let w1 ← rd w.data 1
  let w2 ← rd w.data 2
  let d ← wr c.data 0 (v1 * w2 - v2 * w1)
  let d ← wr d 1 (v2 * w0 - v0 * w2)
  let d ← wr d 2 (v0 * w1 - v1 * w0)
  return (0, { c with data := d })

/-- vectors.c:312-332 `zsl_vec_mean`. Bounds checks off. -/
def vecMean (v : List (Vec R)) (n : Nat) (m : Vec R) : Out (Int × Vec R) := do
  let (rc, m) ← vecSum v n m
  if rc ≠ 0 then return (rc, m)
  else do
    let (_, m) ← vecScalarMult m (lit 1 / CReal.ofNat n)
    return (0, m)

/-! ### matrices.c -/

/-- matrices.c:98-110 `zsl_mtx_get`; `x` is the previous value of `*x`. Bounds checks off. -/
def mtxGet (m : Mtx R) (i j : Nat) (_x : R) : Out (Int × R) := do
  let y ← rd m.data (i * m.cols + j)
  return (0, y)

/-- matrices.c:112-124 `zsl_mtx_set`. Bounds checks off. -/
def mtxSet (m : Mtx R) (i j : Nat) (x : R) : Out (Int × Mtx R) := do
  let d ← wr m.data (i * m.cols + j) x
  return (0, { m with data := d })

/-- matrices.c:30-34 `zsl_mtx_entry_fn_empty`. Bounds checks off. -/
def entryFnEmpty : EntryFn R := fun m i j => mtxSet m i j (lit 0)

/-- matrices.c:36-40 `zsl_mtx_entry_fn_identity`. Bounds checks off. -/
def entryFnIdentity : EntryFn R := fun m i j => mtxSet m i j (if i = j then lit 1 else lit 0)

/-- matrices.c:42-47 `zsl_mtx_entry_fn_random`. Bounds checks off. -/
def entryFnRandom : EntryFn R := fun m i j => mtxSet m i j (lit 0)

/-- matrices.c:49-70 `zsl_mtx_init`; `none` is the NULL callback. Simplification: a callback that changes the shape of the
matrix it is filling is not modelled (the loop bounds are those at the call). Bounds checks off. -/
def mtxInit (m : Mtx R) (fn : Option (EntryFn R)) : Out (Int × Mtx R) :=
  forEntries m.rows m.cols (fun i j m =>
    match fn with
    | none => entryFnEmpty m i j
    | some f => f m i j) m

/-- matrices.c:80-96 `zsl_mtx_copy`. Bounds checks off. -/
def mtxCopy (mdest msrc : Mtx R) : Out (Int × Mtx R) := do
  let d ← memcpyAt mdest.data 0 msrc.data 0 (msrc.rows * msrc.cols)
  return (0, { mdest with data := d })

/-- matrices.c:126-141 `zsl_mtx_get_row`; `v` is the caller's array. Bounds checks off. -/
def mtxGetRow (m : Mtx R) (i : Nat) (v : List R) : Out (Int × List R) := do
  let c ← forRet m.cols (fun j v => do
    let (rc, x) ← mtxGet m i j (lit 0)
    if rc ≠ 0 then return Ctl.ret (rc, v)
    else do
      let v ← wr v j x
      return Ctl.next v) v
  match c with
  | .ret r => return r
  | .next v => return (0, v)

/-- matrices.c:143-156 `zsl_mtx_set_row`. Bounds checks off. -/
def mtxSetRow (m : Mtx R) (i : Nat) (v : List R) : Out (Int × Mtx R) := do
  let c ← forRet m.cols (fun j (m : Mtx R) => do
    let x ← rd v j
    let (rc, m) ← mtxSet m i j x
    if rc ≠ 0 then return Ctl.ret (rc, m) else return Ctl.next m) m
  match c with
  | .ret r => return r
  | .next m => return (0, m)

/-- matrices.c:158-173 `zsl_mtx_get_col`. Bounds checks off. -/
def mtxGetCol (m : Mtx R) (j : Nat) (v : List R) : Out (Int × List R) := do
  let c ← forRet m.rows (fun i v => do
    let (rc, x) ← mtxGet m i j (lit 0)
    if rc ≠ 0 then return Ctl.ret (rc, v)
    else do
      let v ← wr v i x
      return Ctl.next v) v
  match c with
  | .ret r => return r
  | .next v => return (0, v)

/-- matrices.c:175-188 `zsl_mtx_set_col`. Bounds checks off. -/
def mtxSetCol (m : Mtx R) (j : Nat) (v : List R) : Out (Int × Mtx R) := do
  let c ← forRet m.rows (fun i (m : Mtx R) => do
    let x ← rd v i
    let (rc, m) ← mtxSet m i j x
    if rc ≠ 0 then return Ctl.ret (rc, m) else return Ctl.next m) m
  match c with
  | .ret r => return r
  | .next m => return (0, m)

/-- matrices.c:285-344 `zsl_mtx_binary_op` with `mc` different from `ma` and `mb`. Simplification: the fall-through cases read
`ma->data[i]` and `mb->data[i]` several times; they are read once here (the values cannot change between). Bounds checks off. -/
def mtxBinaryOp (ma mb mc : Mtx R) (op : BinaryOp) : Out (Int × Mtx R) := do
  let c ← forRet (ma.cols * ma.rows) (fun i d => do
    let a ← rd ma.data i
    let b ← rd mb.data i
    match binaryStep op a b with
    | (some y, true) => do
      let d ← wr d i y
      return Ctl.next d
    | (some y, false) => do
      let d ← wr d i y
      return Ctl.ret (-ENOSYS, d)
    | (none, _) => return Ctl.ret (-ENOSYS, d)) mc.data
  match c with
  | .ret (rc, d) => return (rc, { mc with data := d })
  | .next d => return (0, { mc with data := d })

/-- matrices.c:285-344 `zsl_mtx_binary_op(ma, mb, ma, op)`: the output is the first operand. Only used with ADD and SUB.
Bounds checks off. -/
def mtxBinaryOpD (ma mb : Mtx R) (op : BinaryOp) : Out (Int × Mtx R) := do
  let c ← forRet (ma.cols * ma.rows) (fun i d => do
    let a ← rd d i
    let b ← rd mb.data i
    match binaryStep op a b with
    | (some y, true) => do
      let d ← wr d i y
      return Ctl.next d
    | (some y, false) => do
      let d ← wr d i y
      return Ctl.ret (-ENOSYS, d)
    | (none, _) => return Ctl.ret (-ENOSYS, d)) ma.data
  match c with
  | .ret (rc, d) => return (rc, { ma with data := d })
  | .next d => return (0, { ma with data := d })

/-- matrices.c:346-372 `zsl_mtx_binary_func`; the callback gets the three matrices and returns the new output.
Bounds checks off. -/
def mtxBinaryFunc (ma mb mc : Mtx R)
    (fn : Option (Mtx R → Mtx R → Mtx R → Nat → Nat → Out (Int × Mtx R))) : Out (Int × Mtx R) :=
  forEntries ma.rows ma.cols (fun i j mc =>
    match fn with
    | none => ok (0, mc)
    | some f => f ma mb mc i j) mc

/-- matrices.c:374-378 `zsl_mtx_add`. Bounds checks off. -/
def mtxAdd (ma mb mc : Mtx R) : Out (Int × Mtx R) := mtxBinaryOp ma mb mc .add

/-- matrices.c:380-384 `zsl_mtx_add_d`. Bounds checks off. -/
def mtxAddD (ma mb : Mtx R) : Out (Int × Mtx R) := mtxBinaryOpD ma mb .add

/-- matrices.c:421-425 `zsl_mtx_sub`. Bounds checks off. -/
def mtxSub (ma mb mc : Mtx R) : Out (Int × Mtx R) := mtxBinaryOp ma mb mc .sub

/-- matrices.c:427-431 `zsl_mtx_sub_d`. Bounds checks off. -/
def mtxSubD (ma mb : Mtx R) : Out (Int × Mtx R) := mtxBinaryOpD ma mb .sub

/-- matrices.c:386-401 `zsl_mtx_sum_rows_d`. Bounds checks off. -/
def mtxSumRowsD (m : Mtx R) (i j : Nat) : Out (Int × Mtx R) := do
  let d ← forN m.cols (fun x d => do
    let a ← rd d (i * m.cols + x)
    let b ← rd d (j * m.cols + x)
    wr d (i * m.cols + x) (a + b)) m.data
  return (0, { m with data := d })

/-- matrices.c:403-419 `zsl_mtx_sum_rows_scaled_d`. Bounds checks off. -/
def mtxSumRowsScaledD (m : Mtx R) (i j : Nat) (s : R) : Out (Int × Mtx R) := do
  let d ← forN m.cols (fun x d => do
    let a ← rd d (i * m.cols + x)
    let b ← rd d (j * m.cols + x)
    wr d (i * m.cols + x) (a + b * s)) m.data
  return (0, { m with data := d })

/-- matrices.c:433-465 `zsl_mtx_mult`. The operands are copied first, so `mc` may be one of them: `mtxMult a b a` is the
call with the first operand as output. The local copies are modelled as zeros before they are filled. Bounds checks off. -/
def mtxMult (ma mb mc : Mtx R) : Out (Int × Mtx R) := do
  let (_, a) ← mtxCopy ⟨ma.rows, ma.cols, List.replicate (ma.rows * ma.cols) (lit 0)⟩ ma
  let (_, b) ← mtxCopy ⟨mb.rows, mb.cols, List.replicate (mb.rows * mb.cols) (lit 0)⟩ mb
  let d ← forN a.rows (fun i d =>
    forN b.cols (fun j d => do
      let d ← wr d (j + i * b.cols) (lit 0)
      forN a.cols (fun k d => do
        let acc ← rd d (j + i * b.cols)
        let x ← rd a.data (k + i * a.cols)
        let y ← rd b.data (j + k * b.cols)
        wr d (j + i * b.cols) (acc + x * y)) d) d) mc.data
  return (0, { mc with data := d })

/-- matrices.c:467-485 `zsl_mtx_mult_d`. Bounds checks off. -/
def mtxMultD (ma mb : Mtx R) : Out (Int × Mtx R) := do
  let (_, ma) ← mtxMult ma mb ma
  return (0, ma)

/-- matrices.c:497-511 `zsl_mtx_scalar_mult_row_d`. Bounds checks off. -/
def mtxScalarMultRowD (m : Mtx R) (i : Nat) (s : R) : Out (Int × Mtx R) := do
  let d ← forN m.cols (fun k d => do
    let a ← rd d (i * m.cols + k)
    wr d (i * m.cols + k) (a * s)) m.data
  return (0, { m with data := d })

/-- matrices.c:513-531 `zsl_mtx_trans`; `junk` are the contents of the local row buffer. Bounds checks off. -/
def mtxTrans (junk : Nat → R) (ma mb : Mtx R) : Out (Int × Mtx R) :=
  if ma.cols = 0 then ub
  else do
    let (_, mb) ← forN ma.rows (fun i (s : List R × Mtx R) => do
      let (_, d) ← mtxGetRow ma i s.1
      let (_, mb) ← mtxSetCol s.2 i d
      return (d, mb)) (junkArr junk ma.cols, mb)
    return (0, mb)

/-- matrices.c:533-569 `zsl_mtx_adjoint_3x3` with an output different from the input. Bounds checks off. -/
def mtxAdjoint3x3 (m ma : Mtx R) : Out (Int × Mtx R) :=
  if m.rows ≠ m.cols ∨ ma.rows ≠ ma.cols then ok (-EINVAL, ma)
  else do
    let m0 ← rd m.data 0
    let m1 ← rd m.data 1
    let m2 ← rd m.data 2
    let m3 ← rd m.data 3
    let m4 ← rd m.data 4
    let m5 ← rd m.data 5
    let m6 ← rd m.data 6
    let m7 ← rd m.data 7
    let m8 ← rd m.data 8
    let d ← wr ma.data 0 (m4 * m8 - m7 * m5)
    let d ← wr d 1 (m7 * m2 - m1 * m8)
    let d ← wr d 2 (m1 * m5 - m4 * m2)
    let d ← wr d 3 (m6 * m5 - m3 * m8)
    let d ← wr d 4 (m0 * m8 - m6 * m2)
    let d ← wr d 5 (m3 * m2 - m0 * m5)
    let d ← wr d 6 (m3 * m7 - m6 * m4)
    let d ← wr d 7 (m6 * m1 - m0 * m7)
    let d ← wr d 8 (m0 * m4 - m3 * m1)
    return (0, { ma with data := d })

/-- matrices.c:644-677 `zsl_mtx_reduce`; `junk` are the contents of the local buffer `v`, `x0` those of the local `x`. Both loops run
to `sz_rows`; `zsl_mtx_get` does not look at the shape. Bounds checks off. -/
def mtxReduce (junk : Nat → R) (x0 : R) (m mr : Mtx R) (i j : Nat) : Out (Int × Mtx R) :=
  if mr.rows = 0 then ub
  else do
    let (_, _, v) ← forN m.rows (fun k (s : Nat × R × List R) =>
      forN m.rows (fun g (s : Nat × R × List R) => do
        let (u, x, v) := s
        if k ≠ i ∧ g ≠ j then do
          let (_, x) ← mtxGet m k g x
          let v ← wr v u x
          return (u + 1, x, v)
        else return (u, x, v)) s) (0, x0, junkArr junk (mr.rows * mr.rows))
    let (_, mr) ← mtxFromArr mr v
    return (0, mr)

/-- matrices.c:679-712 `zsl_mtx_reduce_iter`. Bounds checks off. -/
def mtxReduceIter (junk : Nat → R) (x0 : R) (m : Mtx R) (s : ReduceState R) :
    Out (Int × ReduceState R) := do
  let place1 ← (do
    if m.rows = s.place1.rows then do
      let (_, p) ← mtxCopy s.place1 m
      return p
    else return s.place1)
  if place1.rows = s.mred.rows then do
    let (_, mred) ← mtxCopy s.mred place1
    return (0, ⟨mred, { place1 with rows := m.rows, cols := m.cols },
      { s.place2 with rows := m.rows, cols := m.cols }⟩)
  else do
    let place2 : Mtx R := { s.place2 with rows := szSub place1.rows 1, cols := szSub place1.cols 1 }
    let (_, place2) ← mtxReduce junk x0 place1 place2 0 0
    let place1 : Mtx R := { place1 with rows := szSub place1.rows 1, cols := szSub place1.cols 1 }
    let (_, place1) ← mtxCopy place1 place2
    return (-EAGAIN, ⟨s.mred, place1, place2⟩)

/-- `while (zsl_mtx_reduce_iter(m, &mred, &place1, &place2) != 0);` (matrices.c:1360). Running out of `fuel` counts as `ub`.
Bounds checks off. -/
def mtxReduceLoop (fuel : Nat) (junk : Nat → R) (x0 : R) (m : Mtx R) (s : ReduceState R) :
    Out (ReduceState R) :=
  match fuel with
  | 0 => ub
  | fuel + 1 => do
    let (rc, s) ← mtxReduceIter junk x0 m s
    if rc ≠ 0 then mtxReduceLoop fuel junk x0 m s else return s

/-- matrices.c:714-730 `zsl_mtx_augm_diag`; `x0` is the initial value of the local `x`. Bounds checks off. -/
def mtxAugmDiag (x0 : R) (m maug : Mtx R) : Out (Int × Mtx R) := do
  let diff := szSub maug.rows m.rows
  let (_, maug) ← mtxInit maug (some entryFnIdentity)
  let (_, maug) ← forN m.rows (fun i s =>
    forN m.rows (fun j (s : R × Mtx R) => do
      let (x, maug) := s
      let (_, x) ← mtxGet m i j x
      let (_, maug) ← mtxSet maug (szAdd i diff) (szAdd j diff) x
      return (x, maug)) s) (x0, maug)
  return (0, maug)

/-- matrices.c:732-760 `zsl_mtx_deter_3x3`; `d` is the previous value of `*d`. Bounds checks off. -/
def mtxDeter3x3 (m : Mtx R) (d : R) : Out (Int × R) :=
  if m.rows ≠ m.cols then ok (-EINVAL, d)
  else do
    let m0 ← rd m.data 0
    let m1 ← rd m.data 1
    let m2 ← rd m.data 2
    let m3 ← rd m.data 3
    let m4 ← rd m.data 4
    let m5 ← rd m.data 5
    let m6 ← rd m.data 6
    let m7 ← rd m.data 7
    let m8 ← rd m.data 8
    let d := m0 * (m4 * m8 - m7 * m5)
    let d := d - m3 * (m1 * m8 - m7 * m2)
    let d := d + m6 * (m1 * m5 - m4 * m2)
    return (0, d)

/-- matrices.c:762-825 `zsl_mtx_deter`. `fuel` bounds the recursion depth (running out counts as `ub`); `junk` are the contents of
uninitialised locals. The minor `mr` is cleared before use (line 807), so it starts as zeros here. For a matrix without rows
`sz_rows - 1` wraps around, the declared array has one element, and the loop is not entered. Bounds checks off. -/
def mtxDeterN (fuel : Nat) (junk : Nat → R) (m : Mtx R) (d : R) : Out (Int × R) :=
  match fuel with
  | 0 => ub
  | fuel + 1 =>
    if m.rows = 1 then do
      let x ← rd m.data 0
      return (0, x)
    else if m.rows = 2 then do
      let m0 ← rd m.data 0
      let m3 ← rd m.data 3
      let m2 ← rd m.data 2
      let m1 ← rd m.data 1
      return (0, m0 * m3 - m2 * m1)
    else if m.rows = 3 then mtxDeter3x3 m d
    else do
      let c ← forRet m.cols (fun g (s : R × R × R × Mtx R) => do
        let (d, dtmp, cur, mr) := s
        let (_, cur) ← mtxGet m 0 g cur
        let (_, mr) ← mtxInit mr none
        let (_, mr) ← mtxReduce junk (junk 0) m mr 0 g
        let (rc, dtmp) ← mtxDeterN fuel junk mr dtmp
        if rc ≠ 0 then return Ctl.ret (-EINVAL, d)
        else
          let sign : R := if g % 2 ≠ 0 then lit (-1) else lit 1
          return Ctl.next (d + dtmp * cur * sign, dtmp, cur, mr))
        (lit 0, junk 0, junk 0,
          ⟨m.rows - 1, m.rows - 1, List.replicate ((m.rows - 1) * (m.rows - 1)) (lit 0)⟩)
      match c with
      | .ret r => return r
      | .next s => return (0, s.1)

/-- matrices.c:762-825 `zsl_mtx_deter`: the recursion removes one row at a time, so `sz_rows + 1` levels are enough.
Bounds checks off. -/
def mtxDeter (junk : Nat → R) (m : Mtx R) (d : R) : Out (Int × R) :=
  mtxDeterN (m.rows + 1) junk m d

/-- matrices.c:571-604 `zsl_mtx_adjoint`. Bounds checks off. -/
def mtxAdjoint (junk : Nat → R) (m ma : Mtx R) : Out (Int × Mtx R) :=
  if m.rows = 3 then mtxAdjoint3x3 m ma
  else if m.cols = 1 then ub
  else do
    let (_, _, ma) ← forN m.cols (fun i s =>
      forN m.cols (fun j (s : R × Mtx R × Mtx R) => do
        let (d, mr, ma) := s
        let sign : R := if (i + j) % 2 ≠ 0 then lit (-1) else lit 1
        let (_, mr) ← mtxReduce junk (junk 0) m mr i j
        let (_, d) ← mtxDeter junk mr d
        let d := d * sign
        let (_, ma) ← mtxSet ma i j d
        return (d, mr, ma)) s) (junk 0, Mtx.uninit junk (m.cols - 1) (m.cols - 1), ma)
    return (0, ma)

/-- matrices.c:853-874, the row loop of `zsl_mtx_gauss_elim`. `p` is incremented in the body when it is the pivot row.
Bounds checks off. -/
def gaussElimLoop (mg mi : Mtx R) (i j : Nat) (x y : R) (p : Nat) :
    Out (Int × Mtx R × Mtx R) :=
  if p < mg.rows then
    let p' := if p = i then p + 1 else p
    if p' = mg.rows then ok (0, mg, mi)
    else do
      let (_, x) ← mtxGet mg p' j x
      if isNonzeroE x then do
        let (rc, mg') ← mtxSumRowsScaledD mg p' i (-(x / y))
        if rc ≠ 0 then return (-EINVAL, mg', mi)
        else do
          let (rc, mi') ← mtxSumRowsScaledD mi p' i (-(x / y))
          if rc ≠ 0 then return (-EINVAL, mg', mi')
          else gaussElimLoop ⟨mg.rows, mg'.cols, mg'.data⟩ mi' i j x y (p' + 1)
      else gaussElimLoop mg mi i j x y (p' + 1)
  else ok (0, mg, mi)
termination_by mg.rows - p
decreasing_by
  all_goals
    split_ifs <;> omega

/-- matrices.c:841-876, `zsl_mtx_gauss_elim` after the copy. `x0` is the initial value of the locals `x` and `y`.
Bounds checks off. -/
def gaussElimBody (x0 : R) (mg mi : Mtx R) (i j : Nat) : Out (Int × Mtx R × Mtx R) := do
  let (rc, y) ← mtxGet mg i j x0
  if rc ≠ 0 then return (rc, mg, mi)
  else if isZeroE y then return (0, mg, mi)
  else gaussElimLoop mg mi i j x0 y 0

/-- matrices.c:827-877 `zsl_mtx_gauss_elim` with three different matrices; returns `mg` and `mi`. Bounds checks off. -/
def mtxGaussElim (x0 : R) (m mg mi : Mtx R) (i j : Nat) : Out (Int × Mtx R × Mtx R) := do
  let (rc, mg) ← mtxCopy mg m
  if rc ≠ 0 then return (-EINVAL, mg, mi)
  else gaussElimBody x0 mg mi i j

/-- matrices.c:879-883 `zsl_mtx_gauss_elim_d`: the matrix is copied onto itself, which changes nothing. Bounds checks off. -/
def mtxGaussElimD (x0 : R) (m mi : Mtx R) (i j : Nat) : Out (Int × Mtx R × Mtx R) :=
  gaussElimBody x0 m mi i j

/-- matrices.c:997-1019, `zsl_mtx_norm_elem` after the copy. Bounds checks off. -/
def normElemBody (x0 : R) (mn mi : Mtx R) (i j : Nat) : Out (Int × Mtx R × Mtx R) := do
  let (rc, x) ← mtxGet mn i j x0
  if rc ≠ 0 then return (rc, mn, mi)
  else if isZeroE x then return (0, mn, mi)
  else do
    let (rc, mn) ← mtxScalarMultRowD mn i (lit 1 / x)
    if rc ≠ 0 then return (-EINVAL, mn, mi)
    else do
      let (rc, mi) ← mtxScalarMultRowD mi i (lit 1 / x)
      if rc ≠ 0 then return (-EINVAL, mn, mi) else return (0, mn, mi)

/-- matrices.c:983-1019 `zsl_mtx_norm_elem` with three different matrices; returns `mn` and `mi`. Bounds checks off. -/
def mtxNormElem (x0 : R) (m mn mi : Mtx R) (i j : Nat) : Out (Int × Mtx R × Mtx R) := do
  let (rc, mn) ← mtxCopy mn m
  if rc ≠ 0 then return (-EINVAL, mn, mi)
  else normElemBody x0 mn mi i j

/-- matrices.c:1021-1025 `zsl_mtx_norm_elem_d`. Bounds checks off. -/
def mtxNormElemD (x0 : R) (m mi : Mtx R) (i j : Nat) : Out (Int × Mtx R × Mtx R) :=
  normElemBody x0 m mi i j

/-- matrices.c:906-926: make the diagonal element of row `k` non-zero, if an admissible row is found. `v` is the local column
buffer, `y` the local scalar. Bounds checks off. -/
def gaussPivot (rows k : Nat) (v : List R) (y : R) (mg mi : Mtx R) :
    Out (List R × R × Mtx R × Mtx R) := do
  let (_, v) ← mtxGetCol mg k v
  let c ← forRet rows (fun q (y : R) => do
    let (_, y) ← mtxGet mg q q y
    let vq ← rd v q
    if isNonzeroE vq then
      if q < k ∧ isNonzeroE y = true then return Ctl.next y
      else do
        let (_, mg) ← mtxSumRowsD mg k q
        let (_, mi) ← mtxSumRowsD mi k q
        return Ctl.ret (v, y, mg, mi)
    else return Ctl.next y) y
  match c with
  | .ret r => return r
  | .next y => return (v, y, mg, mi)

/-- matrices.c:898-935, one pass of the loop of `zsl_mtx_gauss_reduc`. Bounds checks off. -/
def gaussReducStep (junk : Nat → R) (rows k : Nat) (s : GaussState R) : Out (GaussState R) := do
  let (_, x) ← mtxGet s.mg k k s.x
  let (v, y, mg, mi) ← (if isZeroE x then gaussPivot rows k s.v s.y s.mg s.mi
    else ok (s.v, s.y, s.mg, s.mi))
  let (_, mg, mi) ← mtxGaussElimD (junk 0) mg mi k k
  let (_, mg, mi) ← mtxNormElemD (junk 0) mg mi k k
  return ⟨x, y, v, mg, mi⟩

/-- matrices.c:885-938 `zsl_mtx_gauss_reduc(m, mi, mg)`; returns `mi` and `mg`. Bounds checks off. -/
def mtxGaussReduc (junk : Nat → R) (m mi mg : Mtx R) : Out (Int × Mtx R × Mtx R) :=
  if m.rows = 0 then ub
  else do
    let (_, mg) ← mtxCopy mg m
    let s ← forN m.rows (fun k s => gaussReducStep junk m.rows k s)
      ⟨junk 0, junk 0, junkArr junk m.rows, mg, mi⟩
    return (0, s.mi, s.mg)

/-- matrices.c:1027-1080 `zsl_mtx_inv_3x3` with an output different from the input. Bounds checks off. -/
def mtxInv3x3 (x0 : R) (m mi : Mtx R) : Out (Int × Mtx R) :=
  if m.rows ≠ m.cols ∨ mi.rows ≠ mi.cols then ok (-EINVAL, mi)
  else do
    let (rc, d) ← mtxDeter3x3 m x0
    if rc ≠ 0 then return (rc, mi)
    else do
      let (rc, mi) ← mtxAdjoint3x3 m mi
      if rc ≠ 0 then return (rc, mi)
      else if CReal.ne d (lit 0) then do
        let (_, mi) ← mtxScalarMultD mi (lit 1 / d)
        return (0, mi)
      else do
        let (rc, mi) ← mtxInit mi (some entryFnIdentity)
        if rc ≠ 0 then return (-EINVAL, mi) else return (0, mi)

/-- matrices.c:1082-1132 `zsl_mtx_inv`. Bounds checks off. -/
def mtxInv (junk : Nat → R) (m mi : Mtx R) : Out (Int × Mtx R) :=
  if m.rows = 3 then mtxInv3x3 (junk 0) m mi
  else if m.rows ≠ m.cols ∨ mi.rows ≠ mi.cols then ok (-EINVAL, mi)
  else if mi.rows = 0 then ub
  else do
    let (rc, mTmp) ← mtxCopy (Mtx.uninit junk mi.rows mi.cols) m
    if rc ≠ 0 then return (-EINVAL, mi)
    else do
      let (rc, mi) ← mtxInit mi (some entryFnIdentity)
      if rc ≠ 0 then return (-EINVAL, mi)
      else do
        let (_, d) ← mtxDeter junk m (lit 0)
        if CReal.eq d (lit 0) then return (0, mi)
        else do
          let (_, mi, _) ← mtxGaussReduc junk m mi mTmp
          return (0, mi)

/-- matrices.c:606-642 `zsl_mtx_vec_wedge`. Bounds checks off. -/
def mtxVecWedge (junk : Nat → R) (m : Mtx R) (v : Vec R) : Out (Int × Vec R) := do
  let n := m.cols
  let (_, A) ← mtxInit (Mtx.uninit junk n n) none
  let d ← wr A.data (n * n - 1) (lit 1)
  let (_, A) ← forN m.rows (fun i (s : List R × Mtx R) => do
    let (_, av) ← mtxGetRow m i s.1
    let (_, A) ← mtxSetRow s.2 i av
    return (av, A)) (junkArr junk n, ({ A with data := d } : Mtx R))
  let (_, d) ← mtxDeter junk A (junk 0)
  let (_, Ai) ← mtxInv junk A (Mtx.uninit junk n n)
  let (_, b) ← mtxInit (Mtx.uninit junk n 1) none
  let bd ← wr b.data (n - 1) d
  let b : Mtx R := { b with data := bd }
  let (_, b) ← mtxMult Ai b b
  let (_, v) ← vecFromArr v b.data
  return (0, v)

/-- matrices.c:1908-1928 `zsl_mtx_is_sym`; `x0` is the initial value of the locals `x` and `y`. Bounds checks off. -/
def mtxIsSym (x0 : R) (m : Mtx R) : Out Bool := do
  let c ← forRet m.rows (fun i s =>
    forRet m.cols (fun j (s : R × R) => do
      let (_, x) ← mtxGet m i j s.1
      let (_, y) ← mtxGet m j i s.2
      let diff := x - y
      if CReal.ge diff (lit 1e-6) || CReal.le diff (-lit 1e-6) then return Ctl.ret false
      else return Ctl.next (x, y)) s) (x0, x0)
  match c with
  | .ret r => return r
  | .next _ => return true

/-! ### Decompositions -/

/-- matrices.c:940-967 `zsl_mtx_gram_schmidt`, with an output different from the input. Bounds checks off. -/
def mtxGramSchmidt (junk : Nat → R) (m mort : Mtx R) : Out (Int × Mtx R) :=
  if m.rows = 0 then ub
  else do
    let (_, _, _, mort) ← forN m.cols (fun t (s : Vec R × Vec R × Vec R × Mtx R) => do
      let (v, w, q, mort) := s
      let (_, q) ← vecInit q
      let (_, vd) ← mtxGetCol m t v.data
      let v : Vec R := { v with data := vd }
      let (w, q) ← forN t (fun g (s : Vec R × Vec R) => do
        let (w, q) := s
        let (_, wd) ← mtxGetCol mort g w.data
        let (_, w) ← vecProjectOnto { w with data := wd } v
        let (_, q) ← vecAdd q w q
        return (w, q)) (w, q)
      let (_, v) ← vecSub v q v
      let (_, mort) ← mtxSetCol mort t v.data
      return (v, w, q, mort)) (Vec.uninit junk m.rows, Vec.uninit junk m.rows, Vec.uninit junk m.rows, mort)
    return (0, mort)

/-- matrices.c:969-981 `zsl_mtx_cols_norm`, with an output different from the input. Bounds checks off. -/
def mtxColsNorm (junk : Nat → R) (m mnorm : Mtx R) : Out (Int × Mtx R) :=
  if m.rows = 0 then ub
  else do
    let (_, mnorm) ← forN m.cols (fun g (s : Vec R × Mtx R) => do
      let (v, mnorm) := s
      let (_, vd) ← mtxGetCol m g v.data
      let (_, v) ← vecToUnit { v with data := vd }
      let (_, mnorm) ← mtxSetCol mnorm g v.data
      return (v, mnorm)) (Vec.uninit junk m.rows, mnorm)
    return (0, mnorm)

/-- matrices.c:1134-1189 `zsl_mtx_cholesky`, with an output different from the input. Bounds checks off. -/
def mtxCholesky (x0 : R) (m l : Mtx R) : Out (Int × Mtx R) := do
  let (_, l) ← mtxInit l (some entryFnEmpty)
  let (_, _, l) ← forN m.cols (fun j (s : R × R × Mtx R) => do
    let (x, y, l) := s
    let (sum, x) ← forN j (fun k (s : R × R) => do
      let (_, x) ← mtxGet l j k s.2
      return (s.1 + x * x, x)) (lit 0, x)
    let (_, x) ← mtxGet m j j x
    let (_, l) ← mtxSet l j j (CReal.sqrt (x - sum))
    forN (m.cols - (j + 1)) (fun i' (s : R × R × Mtx R) => do
      let i := j + 1 + i'
      let (x, y, l) := s
      let (sum, x, y) ← forN j (fun k (s : R × R × R) => do
        let (_, x) ← mtxGet l j k s.2.1
        let (_, y) ← mtxGet l i k s.2.2
        return (s.1 + y * x, x, y)) (lit 0, x, y)
      let (_, x) ← mtxGet l j j x
      let (_, y) ← mtxGet m i j y
      let (_, l) ← mtxSet l i j ((y - sum) / x)
      return (x, y, l)) (x, y, l)) (x0, x0, l)
  return (0, l)

/-- matrices.c:1191-1270 `zsl_mtx_balance`. The locals `row` and `col` are not initialised; `junk 0` and `junk 1` are their values.
Bounds checks off. -/
def mtxBalance (fuel : Nat) (junk : Nat → R) (m mout : Mtx R) : Out (Int × Mtx R) :=
  if m.rows ≠ m.cols ∨ mout.rows ≠ mout.cols then ok (-EINVAL, mout)
  else do
    let (rc, mout) ← mtxCopy mout m
    if rc ≠ 0 then return (rc, mout)
    else do
      let d ← balanceLoop fuel m.rows (junk 0) (junk 1) mout.data
      return (rc, { mout with data := d })

/-- matrices.c:1272-1334 `zsl_mtx_householder`. Bounds checks off. -/
def mtxHouseholder (junk : Nat → R) (m h : Mtx R) (hessenberg : Bool) : Out (Int × Mtx R) := do
  let size := if hessenberg then szSub m.rows 1 else m.rows
  if size = 0 ∨ m.rows = 0 then ub
  else do
    let (_, e1) ← vecInit (Vec.uninit junk size)
    let d ← wr e1.data 0 (lit 1)
    let e1 : Vec R := { e1 with data := d }
    let (_, v2) ← mtxGetCol m 0 (junkArr junk m.rows)
    let v2 : Vec R := ⟨m.rows, v2⟩
    let (_, v) ← (if hessenberg then vecGetSubset v2 1 size (Vec.uninit junk size)
      else vecCopy (Vec.uninit junk size) v2)
    let v0 ← rd v.data 0
    let sign : R := if CReal.lt v0 (lit 0) then lit (-1) else lit 1
    let nv ← vecNorm v
    let (_, e1) ← vecScalarMult e1 (-sign * nv)
    let (_, v) ← vecAdd v e1 v
    let nv ← vecNorm v
    let (_, v) ← vecScalarDiv v nv
    let (_, mv) ← mtxFromArr (Mtx.uninit junk size 1) v.data
    let (_, mvt) ← mtxTrans junk mv (Mtx.uninit junk 1 size)
    let (_, vvt) ← mtxMult mv mvt (Mtx.uninit junk size size)
    let (_, id) ← mtxInit (Mtx.uninit junk size size) (some entryFnIdentity)
    let (_, vvt) ← mtxScalarMultD vvt (lit (-2))
    let (_, h2) ← mtxAdd id vvt (Mtx.uninit junk size size)
    let (_, h) ← mtxAugmDiag (junk 0) h2 h
    return (0, h)

/-- matrices.c:1353-1382, one pass of the loop of `zsl_mtx_qrd`; the state is (r2, hess, h, h2, qt, r). Bounds checks off. -/
def qrdStep (junk : Nat → R) (rows cols : Nat) (hessenberg : Bool) (g : Nat)
    (s : Mtx R × Mtx R × Mtx R × Mtx R × Mtx R × Mtx R) : Out (Mtx R × Mtx R × Mtx R × Mtx R × Mtx R × Mtx R) := do
  let (r2, hess, h, h2, qt, r) := s
  let st ← mtxReduceLoop (r.rows + 1) junk (junk 0) r
    ⟨Mtx.uninit junk (szSub rows g) (szSub cols g), Mtx.uninit junk r.rows r.cols, Mtx.uninit junk r.rows r.cols⟩
  let (_, hred) ← mtxHouseholder junk st.mred (Mtx.uninit junk (szSub rows g) (szSub rows g)) hessenberg
  let (_, h) ← mtxAugmDiag (junk 0) hred h
  let (_, r2) ← mtxMult h r r2
  let (_, h2) ← mtxMult h qt h2
  let (_, qt) ← mtxCopy qt h2
  if hessenberg then do
    let (_, hess) ← mtxMult r2 h hess
    let (_, r) ← mtxCopy r hess
    return (r2, hess, h, h2, qt, r)
  else do
    let (_, r) ← mtxCopy r r2
    return (r2, hess, h, h2, qt, r)

/-- matrices.c:1336-1389 `zsl_mtx_qrd`; returns `q` and `r`. The three arguments are different matrices. Bounds checks off. -/
def mtxQrd (junk : Nat → R) (m q r : Mtx R) (hessenberg : Bool) : Out (Int × Mtx R × Mtx R) :=
  if m.rows = 0 ∨ m.cols = 0 then ub
  else do
    let (_, h) ← mtxInit (Mtx.uninit junk m.rows m.rows) none
    let (_, qt) ← mtxInit (Mtx.uninit junk m.rows m.rows) (some entryFnIdentity)
    let (_, r) ← mtxCopy r m
    let (_, _, _, _, qt, r) ← forN (szSub m.rows 1) (fun g s => qrdStep junk m.rows m.cols hessenberg g s)
      (Mtx.uninit junk m.rows m.cols, Mtx.uninit junk m.rows m.cols, h, Mtx.uninit junk m.rows m.rows, qt, r)
    let (_, q) ← mtxTrans junk qt q
    return (0, q, r)

/-- matrices.c:1392-1417 `zsl_mtx_qrd_iter`. Bounds checks off. -/
def mtxQrdIter (junk : Nat → R) (m mout : Mtx R) (iter : Nat) : Out (Int × Mtx R) :=
  if m.rows = 0 then ub
  else do
    let (rc, mout) ← mtxCopy mout m
    if rc ≠ 0 then return (-EINVAL, mout)
    else do
      let (_, _, mout) ← forN iter (fun _ (s : Mtx R × Mtx R × Mtx R) => do
        let (q, r, mout) := s
        let (_, q, r) ← mtxQrd junk mout q r false
        let (_, mout) ← mtxMult r q mout
        return (q, r, mout)) (Mtx.uninit junk m.rows m.rows, Mtx.uninit junk m.rows m.rows, mout)
      return (0, mout)

/-- matrices.c:1482-1496, the scan of the subdiagonal in `zsl_mtx_eigenvalues` from position `g` on, with `last = sz_rows - 1`;
the state is (sdiag, diag, v->data, real). Bounds checks off. -/
def eigScan (fuel : Nat) (mout : Mtx R) (last g : Nat) (sdiag diag : R) (vd : List R) (real : Nat) :
    Out (R × R × List R × Nat) :=
  if g < last then
    match fuel with
    | 0 => ub
    | fuel + 1 => do
      let (_, sdiag) ← mtxGet mout (g + 1) g sdiag
      if CReal.ge sdiag (lit 1e-6) || CReal.le sdiag (-lit 1e-6) then
        eigScan fuel mout last (g + 2) sdiag diag vd real
      else do
        let (_, diag) ← mtxGet mout g g diag
        let vd ← wr vd real diag
        eigScan fuel mout last (g + 1) sdiag diag vd (real + 1)
  else ok (sdiag, diag, vd, real)

/-- matrices.c:1421-1523 `zsl_mtx_eigenvalues`. Bounds checks off. -/
def mtxEigenvalues (fuel : Nat) (junk : Nat → R) (m : Mtx R) (v : Vec R) (iter : Nat) : Out (Int × Vec R) :=
  if m.rows = 0 then ub
  else do
    let (_, mtemp) ← mtxBalance fuel junk m (Mtx.uninit junk m.rows m.rows)
    let (_, mout, mtemp2) ← mtxQrd junk mtemp (Mtx.uninit junk m.rows m.rows) (Mtx.uninit junk m.rows m.rows) true
    let (_, mout) ← mtxQrdIter junk mtemp2 mout iter
    let (_, v) ← vecInit v
    let sym ← mtxIsSym (junk 0) m
    if sym then do
      let (_, vd) ← forN m.rows (fun g (s : R × List R) => do
        let (_, diag) ← mtxGet mout g g s.1
        let vd ← wr s.2 g diag
        return (diag, vd)) (junk 0, v.data)
      return (0, { v with data := vd })
    else do
      let (sdiag, diag, vd, real) ← eigScan m.rows mout (szSub m.rows 1) 0 (junk 0) (junk 0) v.data 0
      let (_, sdiag) ← mtxGet mout (szSub m.rows 1) (szSub m.rows 2) sdiag
      let (vd, real) ← (if CReal.ge sdiag (lit 1e-6) || CReal.le sdiag (-lit 1e-6) then ok (vd, real)
        else do
          let (_, diag) ← mtxGet mout (szSub m.rows 1) (szSub m.rows 1) diag
          let vd ← wr vd real diag
          return (vd, real + 1))
      let v : Vec R := ⟨real, vd⟩
      if real ≠ m.rows then return (-ECOMPLEXVAL, v)
      else do
        let (_, v) ← vecZte v
        return (0, v)

/-- matrices.c:1604-1651, collecting the eigenvectors of one eigenvalue into the columns of `dst` from column `b` on; returns
(mi, f, dst, b). Used for both branches of the `orthonormal` test. Bounds checks off. -/
def collectEigen (rows : Nat) (x0 : R) (mi : Mtx R) (f : Vec R) (dst : Mtx R) (b : Nat) :
    Out (Mtx R × Vec R × Mtx R × Nat) := do
  let (_, mi, f, dst, b) ← forN rows (fun h (s : R × Mtx R × Vec R × Mtx R × Nat) => do
    let (x, mi, f, dst, b) := s
    let (_, x) ← mtxGet mi h h x
    if isSmall x then do
      let (_, mi) ← mtxSet mi h h (lit (-1))
      let (_, fd) ← mtxGetCol mi h f.data
      let (_, f) ← vecNeg { f with data := fd }
      let (_, dst) ← mtxSetCol dst b f.data
      return (x, mi, f, dst, b + 1)
    else return (x, mi, f, dst, b)) (x0, mi, f, dst, b)
  return (mi, f, dst, b)

/-- matrices.c:1586-1653, the eigenvectors for one eigenvalue `o`; the state is (mid, mi, evec, evec2, f, mev2, b).
Bounds checks off. -/
def eigenvectorsOf (junk : Nat → R) (m : Mtx R) (orthonormal : Bool) (o : R)
    (s : Mtx R × Mtx R × Mtx R × Mtx R × Vec R × Mtx R × Nat) :
    Out (Mtx R × Mtx R × Mtx R × Mtx R × Vec R × Mtx R × Nat) := do
  let (mid, mi, evec, evec2, f, mev2, b) := s
  let (_, id) ← mtxInit (Mtx.uninit junk m.rows m.rows) (some entryFnIdentity)
  let (_, id) ← mtxScalarMultD id (-o)
  let (_, id) ← mtxAddD id m
  let (_, mid, mi) ← mtxGaussReduc junk id mid mi
  if orthonormal then do
    let (_, count) ← forN m.rows (fun h (s : R × Nat) => do
      let (_, x) ← mtxGet mi h h s.1
      return (x, if isSmall x then s.2 + 1 else s.2)) (junk 0, 0)
    let evec : Mtx R := { evec with cols := count }
    let evec2 : Mtx R := { evec2 with cols := count }
    let (mi, f, evec, _) ← collectEigen m.rows (junk 0) mi f evec 0
    let (_, evec2) ← mtxGramSchmidt junk evec evec2
    let (_, evec) ← mtxColsNorm junk evec2 evec
    let (f, mev2, b) ← forN count (fun gi (s : Vec R × Mtx R × Nat) => do
      let (f, mev2, b) := s
      let (_, fd) ← mtxGetCol evec gi f.data
      let (_, mev2) ← mtxSetCol mev2 b fd
      return ({ f with data := fd }, mev2, b + 1)) (f, mev2, b)
    return (mid, mi, evec, evec2, f, mev2, b)
  else do
    let (mi, f, mev2, b) ← collectEigen m.rows (junk 0) mi f mev2 b
    return (mid, mi, evec, evec2, f, mev2, b)

/-- matrices.c:1527-1671 `zsl_mtx_eigenvectors`. Bounds checks off. -/
def mtxEigenvectors (fuel : Nat) (junk : Nat → R) (m mev : Mtx R) (iter : Nat) (orthonormal : Bool) :
    Out (Int × Mtx R) :=
  if m.rows = 0 then ub
  else do
    let (_, mev2) ← mtxInit (Mtx.uninit junk m.rows m.rows) none
    let (_, o) ← vecInit (Vec.uninit junk m.rows)
    let (_, k) ← mtxEigenvalues fuel junk m (Vec.uninit junk m.rows) iter
    let (o, n) ← distinctEigen m.rows k o
    let u := Mtx.uninit junk m.rows m.rows
    let (_, _, _, _, f, mev2, b) ← forN n (fun g s => do
      let og ← rd o.data g
      eigenvectorsOf junk m orthonormal og s) (u, u, u, u, Vec.uninit junk m.rows, mev2, 0)
    let mev : Mtx R := { mev with cols := b }
    let (_, mev) ← forN b (fun s (st : List R × Mtx R) => do
      let (_, fd) ← mtxGetCol mev2 s st.1
      let (_, mev) ← mtxSetCol st.2 s fd
      return (fd, mev)) (f.data, mev)
    if b ≠ m.cols then return (-EEIGENSIZE, mev) else return (0, mev)

/-- matrices.c:1675-1753 `zsl_mtx_svd`; returns `u`, `e` and `v`. Bounds checks off. -/
def mtxSvd (fuel : Nat) (junk : Nat → R) (m u e v : Mtx R) (iter : Nat) : Out (Int × Mtx R × Mtx R × Mtx R) :=
  if m.rows = 0 ∨ m.cols = 0 then ub
  else do
    let (_, at') ← mtxTrans junk m (Mtx.uninit junk m.cols m.rows)
    let (_, aat) ← mtxMult m at' (Mtx.uninit junk m.rows m.rows)
    let (_, ata) ← mtxMult at' m (Mtx.uninit junk m.cols m.cols)
    let min := if m.rows ≤ m.cols then m.rows else m.cols
    let (_, ev) ← (if min < m.cols then mtxEigenvalues fuel junk aat (Vec.uninit junk min) iter
      else mtxEigenvalues fuel junk ata (Vec.uninit junk min) iter)
    let (_, e) ← mtxInit e none
    let e ← forN min (fun g e => do
      let a ← rd ev.data g
      let (_, e) ← mtxSet e g g (CReal.sqrt a)
      return e) e
    let (_, v) ← mtxEigenvectors fuel junk ata v iter true
    let (_, _, u, pu) ← forN min (fun i (s : R × List R × Mtx R × Nat) => do
      let (d, ui, u, pu) := s
      let (_, ui) ← mtxGetCol v i ui
      let (_, ui2) ← mtxFromArr (Mtx.uninit junk m.cols 1) ui
      let (_, d) ← mtxGet e i i d
      let (_, ui3) ← mtxMult m ui2 (Mtx.uninit junk m.rows 1)
      if isSmall d then return (d, ui, u, pu + 1)
      else do
        let (_, ui3) ← mtxScalarMultD ui3 (lit 1 / d)
        let (_, uv) ← vecFromArr ⟨m.rows, ui⟩ ui3.data
        let (_, u) ← mtxSetCol u i uv.data
        return (d, uv.data, u, pu)) (junk 0, junkArr junk m.rows, u, 0)
    let (_, upri) ← mtxEigenvectors fuel junk aat (Mtx.uninit junk m.rows m.rows) iter true
    let (_, u) ← forN (m.rows - (min - pu)) (fun f' (s : List R × Mtx R) => do
      let f := min - pu + f'
      let (_, hu) ← mtxGetCol upri f s.1
      let (_, u) ← mtxSetCol s.2 f hu
      return (hu, u)) (junkArr junk m.rows, u)
    return (0, u, e, v)

/-- matrices.c:1782-1792, the inversion of the singular values in `zsl_mtx_pinv`. Bounds checks off. -/
def pinvInvert (x0 : R) (min : Nat) (e : Mtx R) : Out (Mtx R) := do
  let (_, e) ← forN min (fun g (s : R × Mtx R) => do
    let (_, x) ← mtxGet s.2 g g s.1
    if CReal.lt x (lit 1e-6) || CReal.gt x (-lit 1e-6) then do
      let x := lit 1 / x
      let (_, e) ← mtxSet s.2 g g x
      return (x, e)
    else return (x, s.2)) (x0, e)
  return e

/-- matrices.c:1757-1803 `zsl_mtx_pinv`. Bounds checks off. -/
def mtxPinv (fuel : Nat) (junk : Nat → R) (m pinv : Mtx R) (iter : Nat) : Out (Int × Mtx R) :=
  if m.rows = 0 ∨ m.cols = 0 then ub
  else do
    let (_, u, e, v) ← mtxSvd fuel junk m (Mtx.uninit junk m.rows m.rows) (Mtx.uninit junk m.rows m.cols)
      (Mtx.uninit junk m.cols m.cols) iter
    let (_, ut) ← mtxTrans junk u (Mtx.uninit junk m.rows m.rows)
    let min := if m.rows ≤ m.cols then m.rows else m.cols
    let e ← pinvInvert (junk 0) min e
    let (_, et) ← mtxTrans junk e (Mtx.uninit junk m.cols m.rows)
    let (_, pas) ← mtxMult v et (Mtx.uninit junk m.cols m.rows)
    let (_, pinv) ← mtxMult pas ut pinv
    return (0, pinv)

end NoChk

end Verif
