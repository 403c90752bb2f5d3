import Verif.Model.MatDecomp
import Verif.Model.Quaternions
import Verif.Model.Statistics

/-!
# Calls whose arguments share storage

The other models take their arguments as values, so two arguments never share storage. Here the functions get pointers into a
memory of objects (`Nat` is a pointer, equal pointers are the same object), and every access of the C code reads or writes the
memory as it is at that moment. Objects with different pointers do not overlap. A `memcpy` of an object onto itself (`zsl_vec_copy`
and `zsl_mtx_copy` with equal arguments), strictly undefined in C, is modelled as the loop over its cells, which changes nothing.
-/

namespace Verif

open Out

variable {R : Type} [CReal R]

/-- A memory of vectors. vectors.h:40-45, reached through pointers as in vectors.c:70-90. -/
abbrev VMem (R : Type) := Nat → Vec R

/-- A memory of matrices. matrices.h:46-53, reached through pointers as in matrices.c:81-96. -/
abbrev MMem (R : Type) := Nat → Mtx R

/-- `p->data` holds `d` from now on. Buffers are written as in vectors.c:80-82. -/
def VMem.setData (mem : VMem R) (p : Nat) (d : List R) : VMem R := Function.update mem p { mem p with data := d }

/-- `p->data` holds `d` from now on. Buffers are written as in matrices.c:113-123. -/
def MMem.setData (mem : MMem R) (p : Nat) (d : List R) : MMem R := Function.update mem p { mem p with data := d }

/-- A call that works on the one object at `p`, given by its effect on the value of that object. Used for the calls with one pointer argument, for example vectors.c:155-163. -/
def onObj {α : Type} (mem : Nat → α) (p : Nat) (f : α → Out (Int × α)) : Out (Int × (Nat → α)) := do
  let (rc, y) ← f (mem p)
  return (rc, Function.update mem p y)

/-! ### Vectors -/

/-- vectors.c:33-40 `zsl_vec_copy(vdest, vsrc)`. -/
def vecCopyMem (mem : VMem R) (vdest vsrc : Nat) : Out (Int × VMem R) := do
  let mem ← forN (mem vsrc).sz (fun i (mem : VMem R) => do
    let x ← rd (mem vsrc).data i
    let d ← wr (mem vdest).data i x
    return mem.setData vdest d) mem
  return (0, Function.update mem vdest { mem vdest with sz := (mem vsrc).sz })

/-- vectors.c:71-85 `zsl_vec_add(v, w, x)`. -/
def vecAddMem (mem : VMem R) (v w x : Nat) : Out (Int × VMem R) :=
  if (mem v).sz ≠ (mem w).sz ∨ (mem v).sz ≠ (mem x).sz then ok (-EINVAL, mem)
  else do
    let mem ← forN (mem v).sz (fun i (mem : VMem R) => do
      let a ← rd (mem v).data i
      let b ← rd (mem w).data i
      let d ← wr (mem x).data i (a + b)
      return mem.setData x d) mem
    return (0, mem)

/-- vectors.c:88-102 `zsl_vec_sub(v, w, x)`. -/
def vecSubMem (mem : VMem R) (v w x : Nat) : Out (Int × VMem R) :=
  if (mem v).sz ≠ (mem w).sz ∨ (mem v).sz ≠ (mem x).sz then ok (-EINVAL, mem)
  else do
    let mem ← forN (mem v).sz (fun i (mem : VMem R) => do
      let a ← rd (mem v).data i
      let b ← rd (mem w).data i
      let d ← wr (mem x).data i (a - b)
      return mem.setData x d) mem
    return (0, mem)

/-- vectors.c:230-248 `zsl_vec_project(u, v, w)`. -/
def vecProjectMem (mem : VMem R) (u v w : Nat) : Out (Int × VMem R) :=
  if (mem v).sz ≠ (mem w).sz ∨ (mem v).sz ≠ (mem u).sz then ok (-EINVAL, mem)
  else do
    let (_, mem) ← vecCopyMem mem w u
    let (_, p) ← vecDot (mem v) (mem u) (lit 0)
    let (_, t) ← vecDot (mem u) (mem u) (lit 0)
    let (_, mem) ← onObj mem w (fun x => vecScalarMult x (p / t))
    return (0, mem)

/-- vectors.c:273-301 `zsl_vec_cross(v, w, c)`. -/
def vecCrossMem (mem : VMem R) (v w c : Nat) : Out (Int × VMem R) :=
  if (mem v).sz ≠ 3 ∨ (mem w).sz ≠ 3 ∨ (mem c).sz ≠ 3 then ok (-EINVAL, mem)
  else do
    let v1 ← rd (mem v).data 1
    let w2 ← rd (mem w).data 2
    let v2 ← rd (mem v).data 2
    let w1 ← rd (mem w).data 1
    let d ← wr (mem c).data 0 (v1 * w2 - v2 * w1)
    let mem := mem.setData c d
    let v2 ← rd (mem v).data 2
    let w0 ← rd (mem w).data 0
    let v0 ← rd (mem v).data 0
    let w2 ← rd (mem w).data 2
    let d ← wr (mem c).data 1 (v2 * w0 - v0 * w2)
    let mem := mem.setData c d
    let v0 ← rd (mem v).data 0
    let w1 ← rd (mem w).data 1
    let v1 ← rd (mem v).data 1
    let w0 ← rd (mem w).data 0
    let d ← wr (mem c).data 2 (v0 * w1 - v1 * w0)
    return (0, mem.setData c d)

/-- vectors.c:506-509, `for (k = 0; k < zsl_vec_contains(v, a, 1E-5); k++) { w->data[count2] = a; count2++; }` from a given `k` on:
the bound is computed anew in every step. Running out of `fuel` counts as `ub`. -/
def sortPutMem (fuel : Nat) (v w : Nat) (a : R) (k : Nat) (mem : VMem R) (count2 : Nat) : Out (VMem R × Nat) :=
  match fuel with
  | 0 => ub
  | fuel + 1 => do
    let c ← vecContains (mem v) a (lit 1e-5)
    if k < c then do
      let d ← wr (mem w).data count2 a
      sortPutMem fuel v w a (k + 1) (mem.setData w d) (count2 + 1)
    else return (mem, count2)

/-- vectors.c:475-513 `zsl_vec_sort(v, w)`, with the same `extra` and `fuel` as in `vecSort`. -/
def vecSortMem (fuel : Nat) (extra : List R) (mem : VMem R) (v w : Nat) : Out (Int × VMem R) := do
  let u : Vec R := ⟨(mem v).sz, List.replicate (mem v).sz (lit 0) ++ extra⟩
  let (ud, count) ← sortDedup (mem v) u
  let z ← vecContains (mem v) (lit 0) (lit 1e-5)
  let count := if z > 0 then count + 1 else count
  let ud ← vecQuicksort fuel ud 0 (szSub count 1)
  let (mem, _) ← forN count (fun i (s : VMem R × Nat) => do
    let a ← rd ud i
    sortPutMem ((mem v).sz + 1) v w a 0 s.1 s.2) (mem, 0)
  return (0, mem)

/-- statistics.c:140-156 `zsl_sta_demean(v, w)`; `m0` is the content of the uninitialised local `m`. -/
def staDemeanMem (m0 : R) (mem : VMem R) (v w : Nat) : Out (Int × VMem R) :=
  if (mem v).sz ≠ (mem w).sz then ok (-EINVAL, mem)
  else do
    let (_, mem) ← vecCopyMem mem w v
    let (_, m) ← staMean (mem v) m0
    let (_, mem) ← onObj mem w (fun x => vecScalarAdd x (-m))
    return (0, mem)

/-! ### Matrices -/

/-- matrices.c:315-336, the values assigned one after the other from the case MEAN on; no case has a `break`. -/
def fallThrough : List (R → R → R) :=
  [fun a b => (a + b) / lit 2,
   fun a b => CReal.pow a b,
   fun a b => if CReal.lt a b then a else b,
   fun a b => if CReal.gt a b then a else b,
   fun a b => boolReal (CReal.eq a b),
   fun a b => boolReal (CReal.ne a b),
   fun a b => boolReal (CReal.lt a b),
   fun a b => boolReal (CReal.gt a b),
   fun a b => boolReal (CReal.le a b),
   fun a b => boolReal (CReal.ge a b)]

/-- matrices.c:298-340, the assignments to `mc->data[i]` the switch executes, and whether the loop goes on (`true`) or the default case
returns. -/
def binaryStmts (op : BinaryOp) : List (R → R → R) × Bool :=
  match op with
  | .add => ([fun a b => a + b], true)
  | .sub => ([fun a b => a - b], true)
  | .mult => ([fun a b => a * b], true)
  | .div => ([fun a b => if CReal.eq b (lit 0) then lit 0 else a / b], true)
  | .mean => (fallThrough, false)
  | .expon => (fallThrough.drop 1, false)
  | .min => (fallThrough.drop 2, false)
  | .max => (fallThrough.drop 3, false)
  | .equal => (fallThrough.drop 4, false)
  | .nequal => (fallThrough.drop 5, false)
  | .less => (fallThrough.drop 6, false)
  | .great => (fallThrough.drop 7, false)
  | .leq => (fallThrough.drop 8, false)
  | .geq => (fallThrough.drop 9, false)
  | .other => ([], false)

/-- The assignments `mc->data[i] = f(ma->data[i], mb->data[i])` of a list, in order. matrices.c:300-340. -/
def assignsMem (ma mb mc i : Nat) (fs : List (R → R → R)) (mem : MMem R) : Out (MMem R) :=
  match fs with
  | [] => ok mem
  | f :: fs => do
    let a ← rd (mem ma).data i
    let b ← rd (mem mb).data i
    let d ← wr (mem mc).data i (f a b)
    assignsMem ma mb mc i fs (mem.setData mc d)

/-- matrices.c:285-344 `zsl_mtx_binary_op(ma, mb, mc, op)`. Simplification: in an assignment both operands are read, also where the
C code needs only one of them (DIV by zero, MIN, MAX). -/
def mtxBinaryOpMem (mem : MMem R) (ma mb mc : Nat) (op : BinaryOp) : Out (Int × MMem R) :=
  if (mem ma).rows ≠ (mem mb).rows ∨ (mem mb).rows ≠ (mem mc).rows ∨ (mem ma).cols ≠ (mem mb).cols ∨
      (mem mb).cols ≠ (mem mc).cols then ok (-EINVAL, mem)
  else do
    let c ← forRet ((mem ma).cols * (mem ma).rows) (fun i (mem : MMem R) => do
      let mem ← assignsMem ma mb mc i (binaryStmts op).1 mem
      if (binaryStmts op (R := R)).2 then return Ctl.next mem else return Ctl.ret ((-ENOSYS : Int), mem)) mem
    match c with
    | .ret r => return r
    | .next mem => return (0, mem)

/-- matrices.c:433-465 `zsl_mtx_mult(ma, mb, mc)`: the operands are copied to locals first. -/
def mtxMultMem (mem : MMem R) (ma mb mc : Nat) : Out (Int × MMem R) :=
  if (mem ma).cols ≠ (mem mb).rows then ok (-EINVAL, mem)
  else if (mem mc).rows ≠ (mem ma).rows ∨ (mem mc).cols ≠ (mem mb).cols then ok (-EINVAL, mem)
  else do
    let (_, a) ← mtxCopy ⟨(mem ma).rows, (mem ma).cols, List.replicate ((mem ma).rows * (mem ma).cols) (lit 0)⟩ (mem ma)
    let (_, b) ← mtxCopy ⟨(mem mb).rows, (mem mb).cols, List.replicate ((mem mb).rows * (mem mb).cols) (lit 0)⟩ (mem mb)
    let mem ← forN a.rows (fun i (mem : MMem R) =>
      forN b.cols (fun j (mem : MMem R) => do
        let d ← wr (mem mc).data (j + i * b.cols) (lit 0)
        forN a.cols (fun k (mem : MMem R) => do
          let acc ← rd (mem mc).data (j + i * b.cols)
          let x ← rd a.data (k + i * a.cols)
          let y ← rd b.data (j + k * b.cols)
          let d ← wr (mem mc).data (j + i * b.cols) (acc + x * y)
          return mem.setData mc d) (mem.setData mc d)) mem) mem
    return (0, mem)

/-- matrices.c:513-531 `zsl_mtx_trans(ma, mb)`; `junk` are the contents of the local row buffer. -/
def mtxTransMem (junk : Nat → R) (mem : MMem R) (ma mb : Nat) : Out (Int × MMem R) :=
  if (mem ma).rows ≠ (mem mb).cols ∨ (mem ma).cols ≠ (mem mb).rows then ok (-EINVAL, mem)
  else if (mem ma).cols = 0 then ub
  else do
    let (_, mem) ← forN (mem ma).rows (fun i (s : List R × MMem R) => do
      let (_, d) ← mtxGetRow (s.2 ma) i s.1
      let (_, mem) ← onObj s.2 mb (fun m => mtxSetCol m i d)
      return (d, mem)) (junkArr junk (mem ma).cols, mem)
    return (0, mem)

/-- One assignment `ma->data[k] = m->data[a] * m->data[b] - m->data[c] * m->data[e];` of matrices.c:556-566. -/
def minorMem (mem : MMem R) (m ma k a b c e : Nat) : Out (MMem R) := do
  let x ← rd (mem m).data a
  let y ← rd (mem m).data b
  let z ← rd (mem m).data c
  let w ← rd (mem m).data e
  let d ← wr (mem ma).data k (x * y - z * w)
  return mem.setData ma d

/-- matrices.c:533-569 `zsl_mtx_adjoint_3x3(m, ma)`. -/
def mtxAdjoint3x3Mem (mem : MMem R) (m ma : Nat) : Out (Int × MMem R) :=
  if (mem m).rows ≠ (mem m).cols ∨ (mem ma).rows ≠ (mem ma).cols then ok (-EINVAL, mem)
  else if (mem m).rows ≠ 3 ∨ (mem ma).rows ≠ 3 then ok (-EINVAL, mem)
  else do
    let mem ← minorMem mem m ma 0 4 8 7 5
    let mem ← minorMem mem m ma 1 7 2 1 8
    let mem ← minorMem mem m ma 2 1 5 4 2
    let mem ← minorMem mem m ma 3 6 5 3 8
    let mem ← minorMem mem m ma 4 0 8 6 2
    let mem ← minorMem mem m ma 5 3 2 0 5
    let mem ← minorMem mem m ma 6 3 7 6 4
    let mem ← minorMem mem m ma 7 6 1 0 7
    let mem ← minorMem mem m ma 8 0 4 3 1
    return (0, mem)

/-- matrices.c:1027-1080 `zsl_mtx_inv_3x3(m, mi)`. -/
def mtxInv3x3Mem (x0 : R) (mem : MMem R) (m mi : Nat) : Out (Int × MMem R) :=
  if (mem m).rows ≠ (mem m).cols ∨ (mem mi).rows ≠ (mem mi).cols then ok (-EINVAL, mem)
  else if (mem m).rows ≠ (mem mi).rows then ok (-EINVAL, mem)
  else if (mem m).cols ≠ (mem mi).cols then ok (-EINVAL, mem)
  else if (mem m).cols ≠ 3 ∨ (mem mi).cols ≠ 3 then ok (-EINVAL, mem)
  else do
    let (rc, d) ← mtxDeter3x3 (mem m) x0
    if rc ≠ 0 then return (rc, mem)
    else do
      let (rc, mem) ← mtxAdjoint3x3Mem mem m mi
      if rc ≠ 0 then return (rc, mem)
      else if CReal.ne d (lit 0) then do
        let (_, mem) ← onObj mem mi (fun x => mtxScalarMultD x (lit 1 / d))
        return (0, mem)
      else do
        let (rc, mem) ← onObj mem mi (fun x => mtxInit x (some entryFnIdentity))
        if rc ≠ 0 then return (-EINVAL, mem) else return (0, mem)

/-- matrices.c:1082-1132 `zsl_mtx_inv(m, mi)`. `zsl_mtx_gauss_reduc` (matrices.c:885-938) reads its first argument only to copy it and
for its shape, before it writes the second, so it is given the value of the first at the call. -/
def mtxInvMem (junk : Nat → R) (mem : MMem R) (m mi : Nat) : Out (Int × MMem R) :=
  if (mem m).rows = 3 then mtxInv3x3Mem (junk 0) mem m mi
  else if (mem m).rows ≠ (mem m).cols ∨ (mem mi).rows ≠ (mem mi).cols then ok (-EINVAL, mem)
  else if (mem m).rows ≠ (mem mi).rows then ok (-EINVAL, mem)
  else if (mem m).cols ≠ (mem mi).cols then ok (-EINVAL, mem)
  else if (mem mi).rows = 0 then ub
  else do
    let (rc, mTmp) ← mtxCopy (Mtx.uninit junk (mem mi).rows (mem mi).cols) (mem m)
    if rc ≠ 0 then return (-EINVAL, mem)
    else do
      let (rc, mem) ← onObj mem mi (fun x => mtxInit x (some entryFnIdentity))
      if rc ≠ 0 then return (-EINVAL, mem)
      else do
        let (_, d) ← mtxDeter junk (mem m) (lit 0)
        if CReal.eq d (lit 0) then return (0, mem)
        else do
          let (_, x, _) ← mtxGaussReduc junk (mem m) (mem mi) mTmp
          return (0, Function.update mem mi x)

/-- matrices.c:1134-1189 `zsl_mtx_cholesky(m, l)`. -/
def mtxCholeskyMem (x0 : R) (mem : MMem R) (m l : Nat) : Out (Int × MMem R) :=
  if (mem m).rows ≠ (mem m).cols then ok (-EINVAL, mem)
  else do
    let asym ← choleskyAsym x0 (mem m)
    if asym then return (-EINVAL, mem)
    else if (mem m).rows ≠ (mem l).rows then return (-EINVAL, mem)
    else if (mem m).cols ≠ (mem l).cols then return (-EINVAL, mem)
    else do
      let n := (mem m).cols
      let (_, mem) ← onObj mem l (fun x => mtxInit x (some entryFnEmpty))
      let (_, _, mem) ← forN n (fun j (s : R × R × MMem R) => do
        let (x, y, mem) := s
        let (sum, x) ← forN j (fun k (s : R × R) => do
          let (_, x) ← mtxGet (mem l) j k s.2
          return (s.1 + x * x, x)) (lit 0, x)
        let (_, x) ← mtxGet (mem m) j j x
        let (_, mem) ← onObj mem l (fun a => mtxSet a j j (CReal.sqrt (x - sum)))
        forN (n - (j + 1)) (fun i' (s : R × R × MMem R) => do
          let i := j + 1 + i'
          let (x, y, mem) := s
          let (sum, x, y) ← forN j (fun k (s : R × R × R) => do
            let (_, x) ← mtxGet (mem l) j k s.2.1
            let (_, y) ← mtxGet (mem l) i k s.2.2
            return (s.1 + y * x, x, y)) (lit 0, x, y)
          let (_, x) ← mtxGet (mem l) j j x
          let (_, y) ← mtxGet (mem m) i j y
          let (_, mem) ← onObj mem l (fun a => mtxSet a i j ((y - sum) / x))
          return (x, y, mem)) (x, y, mem)) (x0, x0, mem)
      return (0, mem)

/-- matrices.c:940-967 `zsl_mtx_gram_schmidt(m, mort)`. -/
def mtxGramSchmidtMem (junk : Nat → R) (mem : MMem R) (m mort : Nat) : Out (Int × MMem R) :=
  let r := (mem m).rows
  if r = 0 then ub
  else do
    let (_, _, _, mem) ← forN (mem m).cols (fun t (s : Vec R × Vec R × Vec R × MMem R) => do
      let (v, w, q, mem) := s
      let (_, q) ← vecInit q
      let (_, vd) ← mtxGetCol (mem m) t v.data
      let v : Vec R := { v with data := vd }
      let (w, q) ← forN t (fun g (s : Vec R × Vec R) => do
        let (w, q) := s
        let (_, wd) ← mtxGetCol (mem mort) g w.data
        let (_, w) ← vecProjectOnto { w with data := wd } v
        let (_, q) ← vecAdd q w q
        return (w, q)) (w, q)
      let (_, v) ← vecSub v q v
      let (_, mem) ← onObj mem mort (fun x => mtxSetCol x t v.data)
      return (v, w, q, mem)) (Vec.uninit junk r, Vec.uninit junk r, Vec.uninit junk r, mem)
    return (0, mem)

/-- matrices.c:969-981 `zsl_mtx_cols_norm(m, mnorm)`. -/
def mtxColsNormMem (junk : Nat → R) (mem : MMem R) (m mnorm : Nat) : Out (Int × MMem R) :=
  if (mem m).rows = 0 then ub
  else do
    let (_, mem) ← forN (mem m).cols (fun g (s : Vec R × MMem R) => do
      let (v, mem) := s
      let (_, vd) ← mtxGetCol (mem m) g v.data
      let (_, v) ← vecToUnit { v with data := vd }
      let (_, mem) ← onObj mem mnorm (fun x => mtxSetCol x g v.data)
      return (v, mem)) (Vec.uninit junk (mem m).rows, mem)
    return (0, mem)

/-! ### Quaternions -/

/-- The four assignments `p->r = …; p->i = …; p->j = …; p->k = …;` of values computed before. For example quaternions.c:41-53. -/
def QMem.put (mem : QMem R) (p : Nat) (r i j k : R) : QMem R :=
  (((mem.setR p r).setI p i).setJ p j).setK p k

/-- quaternions.c:145-174 `zsl_quat_exp(q, qe)` on pointers. -/
def quatExpMem (mem : QMem R) (q qe : Nat) : Out (QMem R) := do
  let v : Vec R := ⟨3, [(mem q).i, (mem q).j, (mem q).k]⟩
  let vmag ← vecNorm v
  let (_, v) ← vecToUnit v
  let vsin := CReal.sin vmag
  let rexp := CReal.exp (mem q).r
  let mem := mem.setR qe (CReal.cos vmag * rexp)
  let v0 ← rd v.data 0
  let mem := mem.setI qe (v0 * vsin * rexp)
  let v1 ← rd v.data 1
  let mem := mem.setJ qe (v1 * vsin * rexp)
  let v2 ← rd v.data 2
  return mem.setK qe (v2 * vsin * rexp)

/-- quaternions.c:176-203 `zsl_quat_log(q, ql)` on pointers. -/
def quatLogMem (mem : QMem R) (q ql : Nat) : Out (QMem R) := do
  let (_, v) ← vecToUnit (⟨3, [(mem q).i, (mem q).j, (mem q).k]⟩ : Vec R)
  let qmag := quatMagn (mem q)
  let racos := CReal.acos ((mem q).r / qmag)
  let mem := mem.setR ql (CReal.log qmag)
  let v0 ← rd v.data 0
  let mem := mem.setI ql (v0 * racos)
  let v1 ← rd v.data 1
  let mem := mem.setJ ql (v1 * racos)
  let v2 ← rd v.data 2
  return mem.setK ql (v2 * racos)

/-- quaternions.c:233-244 `zsl_quat_conj(q, qc)` on pointers. -/
def quatConjMem (mem : QMem R) (q qc : Nat) : QMem R :=
  let mem := mem.setR qc (mem q).r
  let mem := mem.setI qc ((mem q).i * lit (-1))
  let mem := mem.setJ qc ((mem q).j * lit (-1))
  mem.setK qc ((mem q).k * lit (-1))

/-- quaternions.c:271-287 `zsl_quat_diff(qa, qb, qd)` on pointers: the local `qi` and `qb` are copied by `zsl_quat_mult`. -/
def quatDiffMem (mem : QMem R) (qa qb qd : Nat) : QMem R :=
  let qac := quatInv (mem qa)
  let qbc := mem qb
  let mem := mem.setI qd (qac.r * qbc.i + qac.i * qbc.r + qac.j * qbc.k - qac.k * qbc.j)
  let mem := mem.setJ qd (qac.r * qbc.j - qac.i * qbc.k + qac.j * qbc.r + qac.k * qbc.i)
  let mem := mem.setK qd (qac.r * qbc.k + qac.i * qbc.j - qac.j * qbc.i + qac.k * qbc.r)
  mem.setR qd (qac.r * qbc.r - qac.i * qbc.i - qac.j * qbc.j - qac.k * qbc.k)

/-- quaternions.c:289-313 `zsl_quat_rot(qa, qb, qr)` on pointers; the locals `qn`, `qm` and `qi` are values. -/
def quatRotMem (mem : QMem R) (qa qb qr : Nat) : Int × QMem R :=
  if CReal.gt (CReal.abs (mem qb).r) (lit 1e-6) then (-EINVAL, mem)
  else
    let qn := quatToUnit (mem qa)
    let qm := quatMult qn (mem qb)
    let qi := quatInv qn
    let mem := mem.setI qr (qm.r * qi.i + qm.i * qi.r + qm.j * qi.k - qm.k * qi.j)
    let mem := mem.setJ qr (qm.r * qi.j - qm.i * qi.k + qm.j * qi.r + qm.k * qi.i)
    let mem := mem.setK qr (qm.r * qi.k + qm.i * qi.j - qm.j * qi.i + qm.k * qi.r)
    (0, mem.setR qr (qm.r * qi.r - qm.i * qi.i - qm.j * qi.j - qm.k * qi.k))

/-- quaternions.c:315-353 `zsl_quat_lerp(qa, qb, t, qi)` on pointers. -/
def quatLerpMem (mem : QMem R) (qa qb : Nat) (t : R) (qi : Nat) : Int × QMem R :=
  if CReal.lt t (lit 0) || CReal.gt t (lit 1) then (-EINVAL, mem)
  else
    let q1 := quatScale (quatToUnit (mem qa)) (lit 1 - t)
    let q2 := quatScale (quatToUnit (mem qb)) t
    let mem := mem.put qi (q1.r + q2.r) (q1.i + q2.i) (q1.j + q2.j) (q1.k + q2.k)
    (0, quatToUnitMem mem qi qi)

/-- quaternions.c:355-445 `zsl_quat_slerp(qa, qb, t, qi)` on pointers. -/
def quatSlerpMem (mem : QMem R) (qa qb : Nat) (t : R) (qi : Nat) : Int × QMem R :=
  if CReal.lt t (lit 0) || CReal.gt t (lit 1) then (-EINVAL, mem)
  else
    let a := quatToUnit (mem qa)
    let b := quatToUnit (mem qb)
    if CReal.eq t (lit 0) then (0, mem.put qi a.r a.i a.j a.k)
    else if CReal.eq t (lit 1) then (0, mem.put qi b.r b.i b.j b.k)
    else
      let dot := a.r * b.r + a.i * b.i + a.j * b.j + a.k * b.k
      if CReal.lt (CReal.abs (dot - lit 1)) (lit 1e-6) then (0, mem.put qi a.r a.i a.j a.k)
      else if CReal.lt (CReal.abs (dot + lit 1)) (lit 1e-6) then (-EINVAL, mem)
      else
        let phi := CReal.acos dot
        let phiS := CReal.sin phi
        let phiSt := CReal.sin (phi * t)
        let phiSmt := CReal.sin (phi * (lit 1 - t))
        let q1 := quatScale a (phiSmt / phiS)
        let q2 := quatScale b (phiSt / phiS)
        (0, mem.put qi (q1.r + q2.r) (q1.i + q2.i) (q1.j + q2.j) (q1.k + q2.k))

/-- quaternions.c:447-485 `zsl_quat_from_ang_vel(w, qin, t, qout)` on pointers to quaternions; the locals are values. -/
def quatFromAngVelMem (mem : QMem R) (w : Vec R) (qin : Nat) (t : R) (qout : Nat) : Out (Int × QMem R) :=
  if w.sz ≠ 3 ∨ CReal.lt t (lit 0) = true then ok (-EINVAL, mem)
  else do
    let w0 ← rd w.data 0
    let w1 ← rd w.data 1
    let w2 ← rd w.data 2
    let qin2 := quatToUnit (mem qin)
    let wq := quatScale (quatMult ⟨lit 0, w0, w1, w2⟩ qin2) (lit 0.5 * t)
    let u := quatToUnit (quatSum qin2 wq)
    return (0, mem.put qout u.r u.i u.j u.k)

end Verif
