import Verif.Model.Alias

/-!
# Calls whose arguments share storage: sums of vectors, subsets, elimination, cofactors, QR

Same conventions as in `Verif.Model.Alias`: a pointer is a `Nat`, equal pointers are the same object.
-/

namespace Verif

open Out

variable {R : Type} [CReal R]

/-! ### Vectors -/

/-- vectors.c:42-68 `zsl_vec_get_subset(v, offset, len, vsub)`. The `memcpy` of lines 64 copies `len` cells from `v->data + offset` to
`vsub->data`; when both are the same buffer the two ranges overlap for `0 < offset < len`, which is undefined. (For `offset = 0` the
ranges are equal, and the copy is taken to change nothing, as for `zsl_vec_copy`.) -/
def vecGetSubsetMem (mem : VMem R) (v offset len vsub : Nat) : Out (Int × VMem R) :=
  if offset ≥ (mem v).sz then ok (-EINVAL, mem)
  else
    let len := if szAdd offset len ≥ (mem v).sz then (mem v).sz - offset else len
    if (mem vsub).sz < len then ok (-EINVAL, mem)
    else
      let sz := if (mem vsub).sz > len then len else (mem vsub).sz
      if v = vsub ∧ 0 < offset ∧ offset < len then ub
      else do
        let mem : VMem R := Function.update mem vsub { mem vsub with sz := sz }
        let mem ← forN len (fun i (mem : VMem R) => do
          let x ← rd (mem v).data (offset + i)
          let d ← wr (mem vsub).data i x
          return mem.setData vsub d) mem
        return (0, mem)

/-- vectors.c:113-141 `zsl_vec_sum(v, n, w)`; `v` is the array of the pointers to the `n` vectors. -/
def vecSumMem (mem : VMem R) (v : List Nat) (n : Nat) (w : Nat) : Out (Int × VMem R) :=
  if n = 0 then ok (-EINVAL, mem)
  else do
    let v0 ← rd v 0
    let szLast := (mem v0).sz
    let chk ← forRet n (fun i (_ : Unit) => do
      let vi ← rd v i
      if szLast ≠ (mem vi).sz then return Ctl.ret (-EINVAL) else return Ctl.next ()) ()
    match chk with
    | .ret rc => return (rc, mem)
    | .next _ => do
      let mem : VMem R := Function.update mem w { mem w with sz := szLast }
      let mem ← forN n (fun i (mem : VMem R) => do
        let vi ← rd v i
        forN (mem w).sz (fun j (mem : VMem R) => do
          let a ← rd (mem w).data j
          let b ← rd (mem vi).data j
          let d ← wr (mem w).data j (a + b)
          return mem.setData w d) mem) mem
      return (0, mem)

/-- vectors.c:312-332 `zsl_vec_mean(v, n, m)`. -/
def vecMeanMem (mem : VMem R) (v : List Nat) (n : Nat) (m : Nat) : Out (Int × VMem R) := do
  let v0 ← rd v 0
  if (mem m).sz ≠ (mem v0).sz then return (-EINVAL, mem)
  else do
    let (rc, mem) ← vecSumMem mem v n m
    if rc ≠ 0 then return (rc, mem)
    else do
      let (_, mem) ← onObj mem m (fun x => vecScalarMult x (lit 1 / CReal.ofNat n))
      return (0, mem)

/-! ### Matrices -/

/-- matrices.c:80-96 `zsl_mtx_copy(mdest, msrc)`. -/
def mtxCopyMem (mem : MMem R) (mdest msrc : Nat) : Out (Int × MMem R) :=
  if (mem mdest).rows ≠ (mem msrc).rows ∨ (mem mdest).cols ≠ (mem msrc).cols then ok (-EINVAL, mem)
  else do
    let mem ← forN ((mem msrc).rows * (mem msrc).cols) (fun i (mem : MMem R) => do
      let x ← rd (mem msrc).data i
      let d ← wr (mem mdest).data i x
      return mem.setData mdest d) mem
    return (0, mem)

/-- matrices.c:853-874, the row loop of `zsl_mtx_gauss_elim`; `rows` is `mg->sz_rows`, which nothing changes. -/
def gaussElimLoopMem (rows : Nat) (mem : MMem R) (mg mi i j : Nat) (x y : R) (p : Nat) : Out (Int × MMem R) :=
  if p < rows then
    let p' := if p = i then p + 1 else p
    if p' = rows then ok (0, mem)
    else do
      let (_, x) ← mtxGet (mem mg) p' j x
      if isNonzeroE x then do
        let (rc, mem) ← onObj mem mg (fun a => mtxSumRowsScaledD a p' i (-(x / y)))
        if rc ≠ 0 then return (-EINVAL, mem)
        else do
          let (rc, mem) ← onObj mem mi (fun a => mtxSumRowsScaledD a p' i (-(x / y)))
          if rc ≠ 0 then return (-EINVAL, mem)
          else gaussElimLoopMem rows mem mg mi i j x y (p' + 1)
      else gaussElimLoopMem rows mem mg mi i j x y (p' + 1)
  else ok (0, mem)
termination_by rows - p
decreasing_by
  all_goals
    split_ifs <;> omega

/-- matrices.c:827-877 `zsl_mtx_gauss_elim(m, mg, mi, i, j)`; `x0` is the content of the uninitialised locals. -/
def mtxGaussElimMem (x0 : R) (mem : MMem R) (m mg mi i j : Nat) : Out (Int × MMem R) := do
  let (rc, mem) ← mtxCopyMem mem mg m
  if rc ≠ 0 then return (-EINVAL, mem)
  else do
    let (rc, y) ← mtxGet (mem mg) i j x0
    if rc ≠ 0 then return (rc, mem)
    else if isZeroE y then return (0, mem)
    else gaussElimLoopMem (mem mg).rows mem mg mi i j x0 y 0

/-- matrices.c:983-1019 `zsl_mtx_norm_elem(m, mn, mi, i, j)`. -/
def mtxNormElemMem (x0 : R) (mem : MMem R) (m mn mi i j : Nat) : Out (Int × MMem R) := do
  let (rc, mem) ← mtxCopyMem mem mn m
  if rc ≠ 0 then return (-EINVAL, mem)
  else do
    let (rc, x) ← mtxGet (mem mn) i j x0
    if rc ≠ 0 then return (rc, mem)
    else if isZeroE x then return (0, mem)
    else do
      let (rc, mem) ← onObj mem mn (fun a => mtxScalarMultRowD a i (lit 1 / x))
      if rc ≠ 0 then return (-EINVAL, mem)
      else do
        let (rc, mem) ← onObj mem mi (fun a => mtxScalarMultRowD a i (lit 1 / x))
        if rc ≠ 0 then return (-EINVAL, mem) else return (0, mem)

/-- matrices.c:1191-1270 `zsl_mtx_balance(m, mout)`: after the copy only the shape of `m` is used. -/
def mtxBalanceMem (fuel : Nat) (junk : Nat → R) (mem : MMem R) (m mout : Nat) : Out (Int × MMem R) :=
  if (mem m).rows ≠ (mem m).cols ∨ (mem mout).rows ≠ (mem mout).cols then ok (-EINVAL, mem)
  else if (mem m).rows ≠ (mem mout).rows then ok (-EINVAL, mem)
  else if (mem m).cols ≠ (mem mout).cols then ok (-EINVAL, mem)
  else do
    let (rc, mem) ← mtxCopyMem mem mout m
    if rc ≠ 0 then return (rc, mem)
    else do
      let d ← balanceLoop fuel (mem m).rows (junk 0) (junk 1) (mem mout).data
      return (rc, mem.setData mout d)

/-- matrices.c:644-677 `zsl_mtx_reduce(m, mr, i, j)`: the elements go to a local buffer first. -/
def mtxReduceMem (junk : Nat → R) (x0 : R) (mem : MMem R) (m mr i j : Nat) : Out (Int × MMem R) :=
  if (mem mr).rows = 0 then ub
  else if (mem mr).rows ≠ szSub (mem m).rows 1 then ok (-EINVAL, mem)
  else if (mem mr).cols ≠ szSub (mem m).cols 1 then ok (-EINVAL, mem)
  else if i ≥ (mem m).rows ∨ j ≥ (mem m).cols then ok (-EINVAL, mem)
  else do
    let (_, _, v) ← forN (mem m).rows (fun k (s : Nat × R × List R) =>
      forN (mem m).rows (fun g (s : Nat × R × List R) => do
        let (u, x, v) := s
        if k ≠ i ∧ g ≠ j then do
          let (_, x) ← mtxGet (mem m) k g x
          let v ← wr v u x
          return (u + 1, x, v)
        else return (u, x, v)) s) (0, x0, junkArr junk ((mem mr).rows * (mem mr).rows))
    let (_, mem) ← onObj mem mr (fun x => mtxFromArr x v)
    return (0, mem)

/-- matrices.c:714-730 `zsl_mtx_augm_diag(m, maug)`: `maug` is set to the identity before `m` is read; the bounds of the loops are read
again at every turn, and do not change. -/
def mtxAugmDiagMem (x0 : R) (mem : MMem R) (m maug : Nat) : Out (Int × MMem R) := do
  let diff := szSub (mem maug).rows (mem m).rows
  let rows := (mem m).rows
  let (_, mem) ← onObj mem maug (fun x => mtxInit x (some entryFnIdentity))
  let (_, mem) ← forN rows (fun i s =>
    forN rows (fun j (s : R × MMem R) => do
      let (x, mem) := s
      let (_, x) ← mtxGet (mem m) i j x
      let (_, mem) ← onObj mem maug (fun y => mtxSet y (szAdd i diff) (szAdd j diff) x)
      return (x, mem)) s) (x0, mem)
  return (0, mem)

/-- matrices.c:571-604 `zsl_mtx_adjoint(m, ma)`. -/
def mtxAdjointMem (junk : Nat → R) (mem : MMem R) (m ma : Nat) : Out (Int × MMem R) :=
  if (mem m).rows = 3 then mtxAdjoint3x3Mem mem m ma
  else if (mem m).rows ≠ (mem m).cols then ok (-EINVAL, mem)
  else if (mem m).cols = 1 then ub
  else do
    let (_, _, mem) ← forN (mem m).cols (fun i s =>
      forN (mem m).cols (fun j (s : R × Mtx R × MMem R) => do
        let (d, mr, mem) := s
        let sign : R := if (i + j) % 2 ≠ 0 then lit (-1) else lit 1
        let (_, mr) ← mtxReduce junk (junk 0) (mem m) mr i j
        let (_, d) ← mtxDeter junk mr d
        let d := d * sign
        let (_, mem) ← onObj mem ma (fun x => mtxSet x i j d)
        return (d, mr, mem)) s) (junk 0, Mtx.uninit junk ((mem m).cols - 1) ((mem m).cols - 1), mem)
    return (0, mem)

/-- matrices.c:1336-1389 `zsl_mtx_qrd(m, q, r, hessenberg)`. After the copy of `m` to `r` the loop uses of `m` only its shape, and of the
arguments it changes only `r`; `q` is written last. -/
def mtxQrdMem (junk : Nat → R) (mem : MMem R) (m q r : Nat) (hessenberg : Bool) : Out (Int × MMem R) :=
  if (mem m).rows = 0 ∨ (mem m).cols = 0 then ub
  else do
    let (_, h) ← mtxInit (Mtx.uninit junk (mem m).rows (mem m).rows) none
    let (_, qt) ← mtxInit (Mtx.uninit junk (mem m).rows (mem m).rows) (some entryFnIdentity)
    let (_, mem) ← mtxCopyMem mem r m
    let (_, _, _, _, qt, x) ← forN (szSub (mem m).rows 1) (fun g s => qrdStep junk (mem m).rows (mem m).cols hessenberg g s)
      (Mtx.uninit junk (mem m).rows (mem m).cols, Mtx.uninit junk (mem m).rows (mem m).cols, h,
        Mtx.uninit junk (mem m).rows (mem m).rows, qt, mem r)
    let mem : MMem R := Function.update mem r x
    let (_, mem) ← onObj mem q (fun y => mtxTrans junk qt y)
    return (0, mem)

/-- matrices.c:1392-1417 `zsl_mtx_qrd_iter(m, mout, iter)`: `q` and `r` are locals. -/
def mtxQrdIterMem (junk : Nat → R) (mem : MMem R) (m mout iter : Nat) : Out (Int × MMem R) :=
  if (mem m).rows = 0 then ub
  else do
    let n := (mem m).rows
    let (rc, mem) ← mtxCopyMem mem mout m
    if rc ≠ 0 then return (-EINVAL, mem)
    else do
      let (_, _, mem) ← forN iter (fun _ (s : Mtx R × Mtx R × MMem R) => do
        let (q, r, mem) := s
        let (_, q, r) ← mtxQrd junk (mem mout) q r false
        let (_, mem) ← onObj mem mout (fun x => mtxMult r q x)
        return (q, r, mem)) (Mtx.uninit junk n n, Mtx.uninit junk n n, mem)
      return (0, mem)

/-! ### Quaternions -/

/-- quaternions.c:205-231 `zsl_quat_pow(q, exp, qout)`: the intermediate results are locals, and `zsl_quat_exp` gets a local and
`qout`. -/
def quatPowMem (mem : QMem R) (q : Nat) (e : R) (qout : Nat) : Out (QMem R) := do
  let l ← quatLog (mem q)
  let y ← quatExp (quatScale l e)
  return mem.put qout y.r y.i y.j y.k

end Verif
