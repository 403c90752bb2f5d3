import Verif.Model.Vectors

/-!
# Model of src/matrices.c: shape, element access, arithmetic, determinant, elimination, inverse

Configuration: `CONFIG_ZSL_BOUNDS_CHECKS=y`, double precision, generic C code. Sizes are natural numbers: `sz_rows * sz_cols`
elements fit into memory, so products of indices do not wrap around. Arguments with different names are different
objects, unless a definition says otherwise. An array of zero elements declared on the stack (`zsl_real_t v[0]`) is undefined
behaviour. `zsl_mtx_print` is in `Model/Print.lean`.
-/

namespace Verif

open Out

/-- `struct zsl_mtx` (include/zsl/matrices.h:46-53); `data` is the whole buffer the pointer points into. -/
structure Mtx (R : Type) where
  rows : Nat
  cols : Nat
  data : List R
deriving DecidableEq, Repr

namespace Mtx
variable {R : Type}

/-- The buffer is at least as large as the shape says. For the structure of matrices.h:46-53. -/
def WF (m : Mtx R) : Prop := m.rows * m.cols ≤ m.data.length

/-- Local `ZSL_MATRIX_DEF(name, r, c)` (include/zsl/matrices.h:58-64): uninitialised cells, whose contents are given by `junk`. -/
def uninit (junk : Nat → R) (r c : Nat) : Mtx R := ⟨r, c, (List.range (r * c)).map junk⟩

end Mtx

variable {R : Type} [CReal R]

/-- Uninitialised local array of `n` cells. matrices.h:61-69 (`ZSL_MATRIX_DEF`) and plain local arrays. -/
def junkArr (junk : Nat → R) (n : Nat) : List R := (List.range n).map junk

/-! ### Element access and initialisation -/

/-- matrices.c:98-110 `zsl_mtx_get`; `x` is the previous value of `*x`. -/
def mtxGet (m : Mtx R) (i j : Nat) (x : R) : Out (Int × R) :=
  if i ≥ m.rows ∨ j ≥ m.cols then ok (-EINVAL, x)
  else do
    let y ← rd m.data (i * m.cols + j)
    return (0, y)

/-- matrices.c:112-124 `zsl_mtx_set`. -/
def mtxSet (m : Mtx R) (i j : Nat) (x : R) : Out (Int × Mtx R) :=
  if i ≥ m.rows ∨ j ≥ m.cols then ok (-EINVAL, m)
  else do
    let d ← wr m.data (i * m.cols + j) x
    return (0, { m with data := d })

/-- Type of the callbacks `zsl_mtx_init_entry_fn_t`, `zsl_mtx_unary_fn_t` (include/zsl/matrices.h:142, 168). -/
abbrev EntryFn (R : Type) := Mtx R → Nat → Nat → Out (Int × Mtx R)

/-- matrices.c:30-34 `zsl_mtx_entry_fn_empty`. -/
def entryFnEmpty : EntryFn R := fun m i j => mtxSet m i j (lit 0)

/-- matrices.c:36-40 `zsl_mtx_entry_fn_identity`. -/
def entryFnIdentity : EntryFn R := fun m i j => mtxSet m i j (if i = j then lit 1 else lit 0)

/-- matrices.c:42-47 `zsl_mtx_entry_fn_random`. -/
def entryFnRandom : EntryFn R := fun m i j => mtxSet m i j (lit 0)

/-- `for (i < r) for (j < c) { rc = body(i, j); if (rc) return rc; }`, the loop of matrices.c:54-67, 270-280, 359-369. -/
def forEntries {σ : Type} (r c : Nat) (body : Nat → Nat → σ → Out (Int × σ)) (s : σ) :
    Out (Int × σ) := do
  let x ← forRet r (fun i s => do
    forRet c (fun j s => do
      let (rc, s) ← body i j s
      if rc ≠ 0 then return Ctl.ret (rc, s) else return Ctl.next s) s) s
  match x with
  | .ret r => return r
  | .next s => return (0, s)

/-- matrices.c:49-70 `zsl_mtx_init`; `none` is the NULL callback. Simplification: a callback that changes the shape of the
matrix it is filling is not modelled (the loop bounds are those at the call). -/
def mtxInit (m : Mtx R) (fn : Option (EntryFn R)) : Out (Int × Mtx R) :=
  forEntries m.rows m.cols (fun i j m =>
    match fn with
    | none => entryFnEmpty m i j
    | some f => f m i j) m

/-- matrices.c:72-78 `zsl_mtx_from_arr`. -/
def mtxFromArr (m : Mtx R) (a : List R) : Out (Int × Mtx R) := do
  let d ← memcpyAt m.data 0 a 0 (m.rows * m.cols)
  return (0, { m with data := d })

/-- matrices.c:80-96 `zsl_mtx_copy`. -/
def mtxCopy (mdest msrc : Mtx R) : Out (Int × Mtx R) :=
  if mdest.rows ≠ msrc.rows ∨ mdest.cols ≠ msrc.cols then ok (-EINVAL, mdest)
  else do
    let d ← memcpyAt mdest.data 0 msrc.data 0 (msrc.rows * msrc.cols)
    return (0, { mdest with data := d })

/-- matrices.c:126-141 `zsl_mtx_get_row`; `v` is the caller's array. -/
def mtxGetRow (m : Mtx R) (i : Nat) (v : List R) : Out (Int × List R) := do
  let c ← forRet m.cols (fun j v => do
    let (rc, x) ← mtxGet m i j (lit 0)
    if rc ≠ 0 then return Ctl.ret (rc, v)
    else do
      let v ← wr v j x
      return Ctl.next v) v
  match c with
  | .ret r => return r
  | .next v => return (0, v)

/-- matrices.c:143-156 `zsl_mtx_set_row`. -/
def mtxSetRow (m : Mtx R) (i : Nat) (v : List R) : Out (Int × Mtx R) := do
  let c ← forRet m.cols (fun j (m : Mtx R) => do
    let x ← rd v j
    let (rc, m) ← mtxSet m i j x
    if rc ≠ 0 then return Ctl.ret (rc, m) else return Ctl.next m) m
  match c with
  | .ret r => return r
  | .next m => return (0, m)

/-- matrices.c:158-173 `zsl_mtx_get_col`. -/
def mtxGetCol (m : Mtx R) (j : Nat) (v : List R) : Out (Int × List R) := do
  let c ← forRet m.rows (fun i v => do
    let (rc, x) ← mtxGet m i j (lit 0)
    if rc ≠ 0 then return Ctl.ret (rc, v)
    else do
      let v ← wr v i x
      return Ctl.next v) v
  match c with
  | .ret r => return r
  | .next v => return (0, v)

/-- matrices.c:175-188 `zsl_mtx_set_col`. -/
def mtxSetCol (m : Mtx R) (j : Nat) (v : List R) : Out (Int × Mtx R) := do
  let c ← forRet m.rows (fun i (m : Mtx R) => do
    let x ← rd v i
    let (rc, m) ← mtxSet m i j x
    if rc ≠ 0 then return Ctl.ret (rc, m) else return Ctl.next m) m
  match c with
  | .ret r => return r
  | .next m => return (0, m)

/-! ### Component-wise operations -/

/-- `zsl_mtx_unary_op_t` (include/zsl/matrices.h:81-102); `other` is a number that is not in the enum. -/
inductive UnaryOp where
  | increment | decrement | negative | round | abs | floor | ceil | exp | log | log10 | sqrt
  | sin | cos | tan | asin | acos | atan | sinh | cosh | tanh | other
deriving DecidableEq, Repr

/-- matrices.c:195-259, one case of the switch; `none` is the default case. -/
def unaryStep (op : UnaryOp) (a : R) : Option R :=
  match op with
  | .increment => some (a + lit 1)
  | .decrement => some (a - lit 1)
  | .negative => some (-a)
  | .round => some (CReal.round a)
  | .abs => some (CReal.abs a)
  | .floor => some (CReal.floor a)
  | .ceil => some (CReal.ceil a)
  | .exp => some (CReal.exp a)
  | .log => some (CReal.log a)
  | .log10 => some (CReal.log10 a)
  | .sqrt => some (CReal.sqrt a)
  | .sin => some (CReal.sin a)
  | .cos => some (CReal.cos a)
  | .tan => some (CReal.tan a)
  | .asin => some (CReal.asin a)
  | .acos => some (CReal.acos a)
  | .atan => some (CReal.atan a)
  | .sinh => some (CReal.sinh a)
  | .cosh => some (CReal.cosh a)
  | .tanh => some (CReal.tanh a)
  | .other => none

/-- matrices.c:190-263 `zsl_mtx_unary_op`. -/
def mtxUnaryOp (m : Mtx R) (op : UnaryOp) : Out (Int × Mtx R) := do
  let c ← forRet (m.cols * m.rows) (fun i d => do
    let a ← rd d i
    match unaryStep op a with
    | some y => do
      let d ← wr d i y
      return Ctl.next d
    | none => return Ctl.ret (-ENOSYS, d)) m.data
  match c with
  | .ret (rc, d) => return (rc, { m with data := d })
  | .next d => return (0, { m with data := d })

/-- matrices.c:265-283 `zsl_mtx_unary_func`; callbacks as in `mtxInit`. -/
def mtxUnaryFunc (m : Mtx R) (fn : Option (EntryFn R)) : Out (Int × Mtx R) :=
  forEntries m.rows m.cols (fun i j m =>
    match fn with
    | none => ok (0, m)
    | some f => f m i j) m

/-- `zsl_mtx_binary_op_t` (include/zsl/matrices.h:105-120); `other` is a number that is not in the enum. -/
inductive BinaryOp where
  | add | sub | mult | div | mean | expon | min | max | equal | nequal | less | great | leq | geq | other
deriving DecidableEq, Repr

/-- `a ? 1.0 : 0.0` matrices.c:326-336. -/
def boolReal (b : Bool) : R := if b then lit 1 else lit 0

/-- matrices.c:298-340: what one pass of the switch stores, and whether the loop goes on (`true`) or returns `-ENOSYS`. The cases
from MEAN on have no `break`: control falls through all later cases, so the last assignment (line 336) is the one that stays,
and ends in the default case. -/
def binaryStep (op : BinaryOp) (a b : R) : Option R × Bool :=
  match op with
  | .add => (some (a + b), true)
  | .sub => (some (a - b), true)
  | .mult => (some (a * b), true)
  | .div => (some (if CReal.eq b (lit 0) then lit 0 else a / b), true)
  | .other => (none, false)
  | _ => (some (boolReal (CReal.ge a b)), false)

/-- matrices.c:285-344 `zsl_mtx_binary_op` with `mc` different from `ma` and `mb`. Simplification: the fall-through cases read
`ma->data[i]` and `mb->data[i]` several times; they are read once here (the values cannot change between). -/
def mtxBinaryOp (ma mb mc : Mtx R) (op : BinaryOp) : Out (Int × Mtx R) :=
  if ma.rows ≠ mb.rows ∨ mb.rows ≠ mc.rows ∨ ma.cols ≠ mb.cols ∨ mb.cols ≠ mc.cols then
    ok (-EINVAL, mc)
  else do
    let c ← forRet (ma.cols * ma.rows) (fun i d => do
      let a ← rd ma.data i
      let b ← rd mb.data i
      match binaryStep op a b with
      | (some y, true) => do
        let d ← wr d i y
        return Ctl.next d
      | (some y, false) => do
        let d ← wr d i y
        return Ctl.ret (-ENOSYS, d)
      | (none, _) => return Ctl.ret (-ENOSYS, d)) mc.data
    match c with
    | .ret (rc, d) => return (rc, { mc with data := d })
    | .next d => return (0, { mc with data := d })

/-- matrices.c:285-344 `zsl_mtx_binary_op(ma, mb, ma, op)`: the output is the first operand. Only used with ADD and SUB. -/
def mtxBinaryOpD (ma mb : Mtx R) (op : BinaryOp) : Out (Int × Mtx R) :=
  if ma.rows ≠ mb.rows ∨ mb.rows ≠ ma.rows ∨ ma.cols ≠ mb.cols ∨ mb.cols ≠ ma.cols then
    ok (-EINVAL, ma)
  else do
    let c ← forRet (ma.cols * ma.rows) (fun i d => do
      let a ← rd d i
      let b ← rd mb.data i
      match binaryStep op a b with
      | (some y, true) => do
        let d ← wr d i y
        return Ctl.next d
      | (some y, false) => do
        let d ← wr d i y
        return Ctl.ret (-ENOSYS, d)
      | (none, _) => return Ctl.ret (-ENOSYS, d)) ma.data
    match c with
    | .ret (rc, d) => return (rc, { ma with data := d })
    | .next d => return (0, { ma with data := d })

/-- matrices.c:346-372 `zsl_mtx_binary_func`; the callback gets the three matrices and returns the new output. -/
def mtxBinaryFunc (ma mb mc : Mtx R)
    (fn : Option (Mtx R → Mtx R → Mtx R → Nat → Nat → Out (Int × Mtx R))) : Out (Int × Mtx R) :=
  if ma.rows ≠ mb.rows ∨ mb.rows ≠ mc.rows ∨ ma.cols ≠ mb.cols ∨ mb.cols ≠ mc.cols then
    ok (-EINVAL, mc)
  else
    forEntries ma.rows ma.cols (fun i j mc =>
      match fn with
      | none => ok (0, mc)
      | some f => f ma mb mc i j) mc

/-- matrices.c:374-378 `zsl_mtx_add`. -/
def mtxAdd (ma mb mc : Mtx R) : Out (Int × Mtx R) := mtxBinaryOp ma mb mc .add

/-- matrices.c:380-384 `zsl_mtx_add_d`. -/
def mtxAddD (ma mb : Mtx R) : Out (Int × Mtx R) := mtxBinaryOpD ma mb .add

/-- matrices.c:421-425 `zsl_mtx_sub`. -/
def mtxSub (ma mb mc : Mtx R) : Out (Int × Mtx R) := mtxBinaryOp ma mb mc .sub

/-- matrices.c:427-431 `zsl_mtx_sub_d`. -/
def mtxSubD (ma mb : Mtx R) : Out (Int × Mtx R) := mtxBinaryOpD ma mb .sub

/-! ### Row operations, product, transpose -/

/-- matrices.c:386-401 `zsl_mtx_sum_rows_d`. -/
def mtxSumRowsD (m : Mtx R) (i j : Nat) : Out (Int × Mtx R) :=
  if i ≥ m.rows ∨ j ≥ m.rows then ok (-EINVAL, m)
  else do
    let d ← forN m.cols (fun x d => do
      let a ← rd d (i * m.cols + x)
      let b ← rd d (j * m.cols + x)
      wr d (i * m.cols + x) (a + b)) m.data
    return (0, { m with data := d })

/-- matrices.c:403-419 `zsl_mtx_sum_rows_scaled_d`. The row index `j` is checked against the number of columns. -/
def mtxSumRowsScaledD (m : Mtx R) (i j : Nat) (s : R) : Out (Int × Mtx R) :=
  if i ≥ m.rows ∨ j ≥ m.cols then ok (-EINVAL, m)
  else do
    let d ← forN m.cols (fun x d => do
      let a ← rd d (i * m.cols + x)
      let b ← rd d (j * m.cols + x)
      wr d (i * m.cols + x) (a + b * s)) m.data
    return (0, { m with data := d })

/-- matrices.c:433-465 `zsl_mtx_mult`. The operands are copied first, so `mc` may be one of them: `mtxMult a b a` is the
call with the first operand as output. The local copies are modelled as zeros before they are filled. -/
def mtxMult (ma mb mc : Mtx R) : Out (Int × Mtx R) :=
  if ma.cols ≠ mb.rows then ok (-EINVAL, mc)
  else if mc.rows ≠ ma.rows ∨ mc.cols ≠ mb.cols then ok (-EINVAL, mc)
  else do
    let (_, a) ← mtxCopy ⟨ma.rows, ma.cols, List.replicate (ma.rows * ma.cols) (lit 0)⟩ ma
    let (_, b) ← mtxCopy ⟨mb.rows, mb.cols, List.replicate (mb.rows * mb.cols) (lit 0)⟩ mb
    let d ← forN a.rows (fun i d =>
      forN b.cols (fun j d => do
        let d ← wr d (j + i * b.cols) (lit 0)
        forN a.cols (fun k d => do
          let acc ← rd d (j + i * b.cols)
          let x ← rd a.data (k + i * a.cols)
          let y ← rd b.data (j + k * b.cols)
          wr d (j + i * b.cols) (acc + x * y)) d) d) mc.data
    return (0, { mc with data := d })

/-- matrices.c:467-485 `zsl_mtx_mult_d`. -/
def mtxMultD (ma mb : Mtx R) : Out (Int × Mtx R) :=
  if ma.cols ≠ mb.rows then ok (-EINVAL, ma)
  else if mb.rows ≠ mb.cols then ok (-EINVAL, ma)
  else do
    let (_, ma) ← mtxMult ma mb ma
    return (0, ma)

/-- matrices.c:487-495 `zsl_mtx_scalar_mult_d`. -/
def mtxScalarMultD (m : Mtx R) (s : R) : Out (Int × Mtx R) := do
  let d ← forN (m.rows * m.cols) (fun i d => do
    let a ← rd d i
    wr d i (a * s)) m.data
  return (0, { m with data := d })

/-- matrices.c:497-511 `zsl_mtx_scalar_mult_row_d`. -/
def mtxScalarMultRowD (m : Mtx R) (i : Nat) (s : R) : Out (Int × Mtx R) :=
  if i ≥ m.rows then ok (-EINVAL, m)
  else do
    let d ← forN m.cols (fun k d => do
      let a ← rd d (i * m.cols + k)
      wr d (i * m.cols + k) (a * s)) m.data
    return (0, { m with data := d })

/-- matrices.c:513-531 `zsl_mtx_trans`; `junk` are the contents of the local row buffer. -/
def mtxTrans (junk : Nat → R) (ma mb : Mtx R) : Out (Int × Mtx R) :=
  if ma.rows ≠ mb.cols ∨ ma.cols ≠ mb.rows then ok (-EINVAL, mb)
  else if ma.cols = 0 then ub
  else do
    let (_, mb) ← forN ma.rows (fun i (s : List R × Mtx R) => do
      let (_, d) ← mtxGetRow ma i s.1
      let (_, mb) ← mtxSetCol s.2 i d
      return (d, mb)) (junkArr junk ma.cols, mb)
    return (0, mb)

/-! ### Minors, determinant, adjoint -/

/-- matrices.c:533-569 `zsl_mtx_adjoint_3x3` with an output different from the input. -/
def mtxAdjoint3x3 (m ma : Mtx R) : Out (Int × Mtx R) :=
  if m.rows ≠ m.cols ∨ ma.rows ≠ ma.cols then ok (-EINVAL, ma)
  else if m.rows ≠ 3 ∨ ma.rows ≠ 3 then ok (-EINVAL, ma)
  else do
    let m0 ← rd m.data 0
    let m1 ← rd m.data 1
    let m2 ← rd m.data 2
    let m3 ← rd m.data 3
    let m4 ← rd m.data 4
    let m5 ← rd m.data 5
    let m6 ← rd m.data 6
    let m7 ← rd m.data 7
    let m8 ← rd m.data 8
    let d ← wr ma.data 0 (m4 * m8 - m7 * m5)
    let d ← wr d 1 (m7 * m2 - m1 * m8)
    let d ← wr d 2 (m1 * m5 - m4 * m2)
    let d ← wr d 3 (m6 * m5 - m3 * m8)
    let d ← wr d 4 (m0 * m8 - m6 * m2)
    let d ← wr d 5 (m3 * m2 - m0 * m5)
    let d ← wr d 6 (m3 * m7 - m6 * m4)
    let d ← wr d 7 (m6 * m1 - m0 * m7)
    let d ← wr d 8 (m0 * m4 - m3 * m1)
    return (0, { ma with data := d })

/-- matrices.c:644-677 `zsl_mtx_reduce`; `junk` are the contents of the local buffer `v`, `x0` those of the local `x`. Both loops run
to `sz_rows`; in a column that does not exist `zsl_mtx_get` fails and `x` keeps its value. -/
def mtxReduce (junk : Nat → R) (x0 : R) (m mr : Mtx R) (i j : Nat) : Out (Int × Mtx R) :=
  if mr.rows = 0 then ub
  else if mr.rows ≠ szSub m.rows 1 then ok (-EINVAL, mr)
  else if mr.cols ≠ szSub m.cols 1 then ok (-EINVAL, mr)
  else if i ≥ m.rows ∨ j ≥ m.cols then ok (-EINVAL, mr)
  else do
    let (_, _, v) ← forN m.rows (fun k (s : Nat × R × List R) =>
      forN m.rows (fun g (s : Nat × R × List R) => do
        let (u, x, v) := s
        if k ≠ i ∧ g ≠ j then do
          let (_, x) ← mtxGet m k g x
          let v ← wr v u x
          return (u + 1, x, v)
        else return (u, x, v)) s) (0, x0, junkArr junk (mr.rows * mr.rows))
    let (_, mr) ← mtxFromArr mr v
    return (0, mr)

/-- The three matrices `zsl_mtx_reduce_iter` works on. matrices.c:680-712. -/
structure ReduceState (R : Type) where
  mred : Mtx R
  place1 : Mtx R
  place2 : Mtx R

/-- matrices.c:679-712 `zsl_mtx_reduce_iter`. -/
def mtxReduceIter (junk : Nat → R) (x0 : R) (m : Mtx R) (s : ReduceState R) :
    Out (Int × ReduceState R) := do
  let place1 ← (do
    if m.rows = s.place1.rows then do
      let (_, p) ← mtxCopy s.place1 m
      return p
    else return s.place1)
  if place1.rows = s.mred.rows then do
    let (_, mred) ← mtxCopy s.mred place1
    return (0, ⟨mred, { place1 with rows := m.rows, cols := m.cols },
      { s.place2 with rows := m.rows, cols := m.cols }⟩)
  else do
    let place2 : Mtx R := { s.place2 with rows := szSub place1.rows 1, cols := szSub place1.cols 1 }
    let (_, place2) ← mtxReduce junk x0 place1 place2 0 0
    let place1 : Mtx R := { place1 with rows := szSub place1.rows 1, cols := szSub place1.cols 1 }
    let (_, place1) ← mtxCopy place1 place2
    return (-EAGAIN, ⟨s.mred, place1, place2⟩)

/-- `while (zsl_mtx_reduce_iter(m, &mred, &place1, &place2) != 0);` (matrices.c:1360). Running out of `fuel` counts as `ub`. -/
def mtxReduceLoop (fuel : Nat) (junk : Nat → R) (x0 : R) (m : Mtx R) (s : ReduceState R) :
    Out (ReduceState R) :=
  match fuel with
  | 0 => ub
  | fuel + 1 => do
    let (rc, s) ← mtxReduceIter junk x0 m s
    if rc ≠ 0 then mtxReduceLoop fuel junk x0 m s else return s

/-- matrices.c:714-730 `zsl_mtx_augm_diag`; `x0` is the initial value of the local `x`. -/
def mtxAugmDiag (x0 : R) (m maug : Mtx R) : Out (Int × Mtx R) := do
  let diff := szSub maug.rows m.rows
  let (_, maug) ← mtxInit maug (some entryFnIdentity)
  let (_, maug) ← forN m.rows (fun i s =>
    forN m.rows (fun j (s : R × Mtx R) => do
      let (x, maug) := s
      let (_, x) ← mtxGet m i j x
      let (_, maug) ← mtxSet maug (szAdd i diff) (szAdd j diff) x
      return (x, maug)) s) (x0, maug)
  return (0, maug)

/-- matrices.c:732-760 `zsl_mtx_deter_3x3`; `d` is the previous value of `*d`. -/
def mtxDeter3x3 (m : Mtx R) (d : R) : Out (Int × R) :=
  if m.rows ≠ m.cols then ok (-EINVAL, d)
  else if m.rows ≠ 3 then ok (-EINVAL, d)
  else do
    let m0 ← rd m.data 0
    let m1 ← rd m.data 1
    let m2 ← rd m.data 2
    let m3 ← rd m.data 3
    let m4 ← rd m.data 4
    let m5 ← rd m.data 5
    let m6 ← rd m.data 6
    let m7 ← rd m.data 7
    let m8 ← rd m.data 8
    let d := m0 * (m4 * m8 - m7 * m5)
    let d := d - m3 * (m1 * m8 - m7 * m2)
    let d := d + m6 * (m1 * m5 - m4 * m2)
    return (0, d)

/-- matrices.c:762-825 `zsl_mtx_deter`. `fuel` bounds the recursion depth (running out counts as `ub`); `junk` are the contents of
uninitialised locals. The minor `mr` is cleared before use (line 807), so it starts as zeros here. For a matrix without rows
`sz_rows - 1` wraps around, the declared array has one element, and the loop is not entered. -/
def mtxDeterN (fuel : Nat) (junk : Nat → R) (m : Mtx R) (d : R) : Out (Int × R) :=
  match fuel with
  | 0 => ub
  | fuel + 1 =>
    if m.rows = 1 then do
      let x ← rd m.data 0
      return (0, x)
    else if m.rows = 2 then do
      let m0 ← rd m.data 0
      let m3 ← rd m.data 3
      let m2 ← rd m.data 2
      let m1 ← rd m.data 1
      return (0, m0 * m3 - m2 * m1)
    else if m.rows = 3 then mtxDeter3x3 m d
    else if m.rows ≠ m.cols then ok (-EINVAL, d)
    else do
      let c ← forRet m.cols (fun g (s : R × R × R × Mtx R) => do
        let (d, dtmp, cur, mr) := s
        let (_, cur) ← mtxGet m 0 g cur
        let (_, mr) ← mtxInit mr none
        let (_, mr) ← mtxReduce junk (junk 0) m mr 0 g
        let (rc, dtmp) ← mtxDeterN fuel junk mr dtmp
        if rc ≠ 0 then return Ctl.ret (-EINVAL, d)
        else
          let sign : R := if g % 2 ≠ 0 then lit (-1) else lit 1
          return Ctl.next (d + dtmp * cur * sign, dtmp, cur, mr))
        (lit 0, junk 0, junk 0,
          ⟨m.rows - 1, m.rows - 1, List.replicate ((m.rows - 1) * (m.rows - 1)) (lit 0)⟩)
      match c with
      | .ret r => return r
      | .next s => return (0, s.1)

/-- matrices.c:762-825 `zsl_mtx_deter`: the recursion removes one row at a time, so `sz_rows + 1` levels are enough. -/
def mtxDeter (junk : Nat → R) (m : Mtx R) (d : R) : Out (Int × R) :=
  mtxDeterN (m.rows + 1) junk m d

/-- matrices.c:571-604 `zsl_mtx_adjoint`. -/
def mtxAdjoint (junk : Nat → R) (m ma : Mtx R) : Out (Int × Mtx R) :=
  if m.rows = 3 then mtxAdjoint3x3 m ma
  else if m.rows ≠ m.cols then ok (-EINVAL, ma)
  else if m.cols = 1 then ub
  else do
    let (_, _, ma) ← forN m.cols (fun i s =>
      forN m.cols (fun j (s : R × Mtx R × Mtx R) => do
        let (d, mr, ma) := s
        let sign : R := if (i + j) % 2 ≠ 0 then lit (-1) else lit 1
        let (_, mr) ← mtxReduce junk (junk 0) m mr i j
        let (_, d) ← mtxDeter junk mr d
        let d := d * sign
        let (_, ma) ← mtxSet ma i j d
        return (d, mr, ma)) s) (junk 0, Mtx.uninit junk (m.cols - 1) (m.cols - 1), ma)
    return (0, ma)

/-! ### Gaussian elimination and inverse -/

/-- `(x >= 0 && x < eps) || (x <= 0 && x > -eps)`, the zero test of matrices.c:848, 906, 1004, 1598, 1734. -/
def isZeroE (x : R) : Bool :=
  (CReal.ge x (lit 0) && CReal.lt x (lit 1e-6)) || (CReal.le x (lit 0) && CReal.gt x (-lit 1e-6))

/-- `(x >= eps) || (x <= -eps)`, the non-zero test of matrices.c:863, 910, 917, 1485, 1567. -/
def isNonzeroE (x : R) : Bool :=
  CReal.ge x (lit 1e-6) || CReal.le x (-lit 1e-6)

/-- matrices.c:853-874, the row loop of `zsl_mtx_gauss_elim`. `p` is incremented in the body when it is the pivot row. -/
def gaussElimLoop (mg mi : Mtx R) (i j : Nat) (x y : R) (p : Nat) :
    Out (Int × Mtx R × Mtx R) :=
  if p < mg.rows then
    let p' := if p = i then p + 1 else p
    if p' = mg.rows then ok (0, mg, mi)
    else do
      let (_, x) ← mtxGet mg p' j x
      if isNonzeroE x then do
        let (rc, mg') ← mtxSumRowsScaledD mg p' i (-(x / y))
        if rc ≠ 0 then return (-EINVAL, mg', mi)
        else do
          let (rc, mi') ← mtxSumRowsScaledD mi p' i (-(x / y))
          if rc ≠ 0 then return (-EINVAL, mg', mi')
          else gaussElimLoop ⟨mg.rows, mg'.cols, mg'.data⟩ mi' i j x y (p' + 1)
      else gaussElimLoop mg mi i j x y (p' + 1)
  else ok (0, mg, mi)
termination_by mg.rows - p
decreasing_by
  all_goals
    split_ifs <;> omega

/-- matrices.c:841-876, `zsl_mtx_gauss_elim` after the copy. `x0` is the initial value of the locals `x` and `y`. -/
def gaussElimBody (x0 : R) (mg mi : Mtx R) (i j : Nat) : Out (Int × Mtx R × Mtx R) := do
  let (rc, y) ← mtxGet mg i j x0
  if rc ≠ 0 then return (rc, mg, mi)
  else if isZeroE y then return (0, mg, mi)
  else gaussElimLoop mg mi i j x0 y 0

/-- matrices.c:827-877 `zsl_mtx_gauss_elim` with three different matrices; returns `mg` and `mi`. -/
def mtxGaussElim (x0 : R) (m mg mi : Mtx R) (i j : Nat) : Out (Int × Mtx R × Mtx R) := do
  let (rc, mg) ← mtxCopy mg m
  if rc ≠ 0 then return (-EINVAL, mg, mi)
  else gaussElimBody x0 mg mi i j

/-- matrices.c:879-883 `zsl_mtx_gauss_elim_d`: the matrix is copied onto itself, which changes nothing. -/
def mtxGaussElimD (x0 : R) (m mi : Mtx R) (i j : Nat) : Out (Int × Mtx R × Mtx R) :=
  gaussElimBody x0 m mi i j

/-- matrices.c:997-1019, `zsl_mtx_norm_elem` after the copy. -/
def normElemBody (x0 : R) (mn mi : Mtx R) (i j : Nat) : Out (Int × Mtx R × Mtx R) := do
  let (rc, x) ← mtxGet mn i j x0
  if rc ≠ 0 then return (rc, mn, mi)
  else if isZeroE x then return (0, mn, mi)
  else do
    let (rc, mn) ← mtxScalarMultRowD mn i (lit 1 / x)
    if rc ≠ 0 then return (-EINVAL, mn, mi)
    else do
      let (rc, mi) ← mtxScalarMultRowD mi i (lit 1 / x)
      if rc ≠ 0 then return (-EINVAL, mn, mi) else return (0, mn, mi)

/-- matrices.c:983-1019 `zsl_mtx_norm_elem` with three different matrices; returns `mn` and `mi`. -/
def mtxNormElem (x0 : R) (m mn mi : Mtx R) (i j : Nat) : Out (Int × Mtx R × Mtx R) := do
  let (rc, mn) ← mtxCopy mn m
  if rc ≠ 0 then return (-EINVAL, mn, mi)
  else normElemBody x0 mn mi i j

/-- matrices.c:1021-1025 `zsl_mtx_norm_elem_d`. -/
def mtxNormElemD (x0 : R) (m mi : Mtx R) (i j : Nat) : Out (Int × Mtx R × Mtx R) :=
  normElemBody x0 m mi i j

/-- matrices.c:906-926: make the diagonal element of row `k` non-zero, if an admissible row is found. `v` is the local column
buffer, `y` the local scalar. -/
def gaussPivot (rows k : Nat) (v : List R) (y : R) (mg mi : Mtx R) :
    Out (List R × R × Mtx R × Mtx R) := do
  let (_, v) ← mtxGetCol mg k v
  let c ← forRet rows (fun q (y : R) => do
    let (_, y) ← mtxGet mg q q y
    let vq ← rd v q
    if isNonzeroE vq then
      if q < k ∧ isNonzeroE y = true then return Ctl.next y
      else do
        let (_, mg) ← mtxSumRowsD mg k q
        let (_, mi) ← mtxSumRowsD mi k q
        return Ctl.ret (v, y, mg, mi)
    else return Ctl.next y) y
  match c with
  | .ret r => return r
  | .next y => return (v, y, mg, mi)

/-- Locals of `zsl_mtx_gauss_reduc`. matrices.c:886-938. -/
structure GaussState (R : Type) where
  x : R
  y : R
  v : List R
  mg : Mtx R
  mi : Mtx R

/-- matrices.c:898-935, one pass of the loop of `zsl_mtx_gauss_reduc`. -/
def gaussReducStep (junk : Nat → R) (rows k : Nat) (s : GaussState R) : Out (GaussState R) := do
  let (_, x) ← mtxGet s.mg k k s.x
  let (v, y, mg, mi) ← (if isZeroE x then gaussPivot rows k s.v s.y s.mg s.mi
    else ok (s.v, s.y, s.mg, s.mi))
  let (_, mg, mi) ← mtxGaussElimD (junk 0) mg mi k k
  let (_, mg, mi) ← mtxNormElemD (junk 0) mg mi k k
  return ⟨x, y, v, mg, mi⟩

/-- matrices.c:885-938 `zsl_mtx_gauss_reduc(m, mi, mg)`; returns `mi` and `mg`. -/
def mtxGaussReduc (junk : Nat → R) (m mi mg : Mtx R) : Out (Int × Mtx R × Mtx R) :=
  if m.rows = 0 then ub
  else do
    let (_, mg) ← mtxCopy mg m
    let s ← forN m.rows (fun k s => gaussReducStep junk m.rows k s)
      ⟨junk 0, junk 0, junkArr junk m.rows, mg, mi⟩
    return (0, s.mi, s.mg)

/-- matrices.c:1027-1080 `zsl_mtx_inv_3x3` with an output different from the input. -/
def mtxInv3x3 (x0 : R) (m mi : Mtx R) : Out (Int × Mtx R) :=
  if m.rows ≠ m.cols ∨ mi.rows ≠ mi.cols then ok (-EINVAL, mi)
  else if m.rows ≠ mi.rows then ok (-EINVAL, mi)
  else if m.cols ≠ mi.cols then ok (-EINVAL, mi)
  else if m.cols ≠ 3 ∨ mi.cols ≠ 3 then ok (-EINVAL, mi)
  else do
    let (rc, d) ← mtxDeter3x3 m x0
    if rc ≠ 0 then return (rc, mi)
    else do
      let (rc, mi) ← mtxAdjoint3x3 m mi
      if rc ≠ 0 then return (rc, mi)
      else if CReal.ne d (lit 0) then do
        let (_, mi) ← mtxScalarMultD mi (lit 1 / d)
        return (0, mi)
      else do
        let (rc, mi) ← mtxInit mi (some entryFnIdentity)
        if rc ≠ 0 then return (-EINVAL, mi) else return (0, mi)

/-- matrices.c:1082-1132 `zsl_mtx_inv`. -/
def mtxInv (junk : Nat → R) (m mi : Mtx R) : Out (Int × Mtx R) :=
  if m.rows = 3 then mtxInv3x3 (junk 0) m mi
  else if m.rows ≠ m.cols ∨ mi.rows ≠ mi.cols then ok (-EINVAL, mi)
  else if m.rows ≠ mi.rows then ok (-EINVAL, mi)
  else if m.cols ≠ mi.cols then ok (-EINVAL, mi)
  else if mi.rows = 0 then ub
  else do
    let (rc, mTmp) ← mtxCopy (Mtx.uninit junk mi.rows mi.cols) m
    if rc ≠ 0 then return (-EINVAL, mi)
    else do
      let (rc, mi) ← mtxInit mi (some entryFnIdentity)
      if rc ≠ 0 then return (-EINVAL, mi)
      else do
        let (_, d) ← mtxDeter junk m (lit 0)
        if CReal.eq d (lit 0) then return (0, mi)
        else do
          let (_, mi, _) ← mtxGaussReduc junk m mi mTmp
          return (0, mi)

/-- matrices.c:606-642 `zsl_mtx_vec_wedge`. -/
def mtxVecWedge (junk : Nat → R) (m : Mtx R) (v : Vec R) : Out (Int × Vec R) :=
  if v.sz ≠ m.cols ∨ v.sz < 4 ∨ m.rows ≠ szSub m.cols 1 then ok (-EINVAL, v)
  else do
    let n := m.cols
    let (_, A) ← mtxInit (Mtx.uninit junk n n) none
    let d ← wr A.data (n * n - 1) (lit 1)
    let (_, A) ← forN m.rows (fun i (s : List R × Mtx R) => do
      let (_, av) ← mtxGetRow m i s.1
      let (_, A) ← mtxSetRow s.2 i av
      return (av, A)) (junkArr junk n, ({ A with data := d } : Mtx R))
    let (_, d) ← mtxDeter junk A (junk 0)
    let (_, Ai) ← mtxInv junk A (Mtx.uninit junk n n)
    let (_, b) ← mtxInit (Mtx.uninit junk n 1) none
    let bd ← wr b.data (n - 1) d
    let b : Mtx R := { b with data := bd }
    let (_, b) ← mtxMult Ai b b
    let (_, v) ← vecFromArr v b.data
    return (0, v)

/-! ### Extrema and predicates -/

/-- matrices.c:1806-1820 `zsl_mtx_min`. -/
def mtxMin (m : Mtx R) : Out (Int × R) := do
  let a ← rd m.data 0
  let x ← forN (m.cols * m.rows) (fun i min => do
    let a ← rd m.data i
    return (if CReal.lt a min then a else min)) a
  return (0, x)

/-- matrices.c:1822-1836 `zsl_mtx_max`. -/
def mtxMax (m : Mtx R) : Out (Int × R) := do
  let a ← rd m.data 0
  let x ← forN (m.cols * m.rows) (fun i max => do
    let a ← rd m.data i
    return (if CReal.gt a max then a else max)) a
  return (0, x)

/-- matrices.c:1838-1857 `zsl_mtx_min_idx`; returns `*i` and `*j`. -/
def mtxMinIdx (m : Mtx R) : Out (Int × Nat × Nat) := do
  let a ← rd m.data 0
  let (_, i, j) ← forN m.rows (fun i s =>
    forN m.cols (fun j (s : R × Nat × Nat) => do
      let a ← rd m.data (i * m.cols + j)
      return (if CReal.lt a s.1 then (a, i, j) else s)) s) (a, 0, 0)
  return (0, i, j)

/-- matrices.c:1859-1878 `zsl_mtx_max_idx`; returns `*i` and `*j`. -/
def mtxMaxIdx (m : Mtx R) : Out (Int × Nat × Nat) := do
  let a ← rd m.data 0
  let (_, i, j) ← forN m.rows (fun i s =>
    forN m.cols (fun j (s : R × Nat × Nat) => do
      let a ← rd m.data (i * m.cols + j)
      return (if CReal.gt a s.1 then (a, i, j) else s)) s) (a, 0, 0)
  return (0, i, j)

/-- matrices.c:1880-1894 `zsl_mtx_is_equal`: `memcmp` of `sz_rows + sz_cols` elements. Equality of the representation is
equality in `R`. -/
def mtxIsEqual [DecidableEq R] (ma mb : Mtx R) : Out Bool :=
  if ma.rows ≠ mb.rows ∨ ma.cols ≠ mb.cols then ok false
  else
    let n := ma.rows + ma.cols
    if ma.data.length < n ∨ mb.data.length < n then ub
    else ok (decide (ma.data.take n = mb.data.take n))

/-- matrices.c:1896-1906 `zsl_mtx_is_notneg`. -/
def mtxIsNotneg (m : Mtx R) : Out Bool := do
  let c ← forRet (m.rows * m.cols) (fun i (_ : Unit) => do
    let a ← rd m.data i
    if CReal.lt a (lit 0) then return Ctl.ret false else return Ctl.next ()) ()
  match c with
  | .ret r => return r
  | .next _ => return true

/-- matrices.c:1908-1928 `zsl_mtx_is_sym`; `x0` is the initial value of the locals `x` and `y`. -/
def mtxIsSym (x0 : R) (m : Mtx R) : Out Bool := do
  let c ← forRet m.rows (fun i s =>
    forRet m.cols (fun j (s : R × R) => do
      let (_, x) ← mtxGet m i j s.1
      let (_, y) ← mtxGet m j i s.2
      let diff := x - y
      if CReal.ge diff (lit 1e-6) || CReal.le diff (-lit 1e-6) then return Ctl.ret false
      else return Ctl.next (x, y)) s) (x0, x0)
  match c with
  | .ret r => return r
  | .next _ => return true

end Verif
