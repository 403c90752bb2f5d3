import Verif.Model.Matrices

/-!
# Model of the decompositions in src/matrices.c

Local arrays of the C code are uninitialised; `junk k` is the value the `k`-th cell happens to hold. A local array of size zero is
undefined behaviour in C and gives `ub`. Loops that need not terminate take `fuel`; running out of it counts as `ub`.
-/

namespace Verif

open Out

variable {R : Type} [CReal R]

/-- matrices.c:940-967 `zsl_mtx_gram_schmidt`, with an output different from the input. -/
def mtxGramSchmidt (junk : Nat → R) (m mort : Mtx R) : Out (Int × Mtx R) :=
  if m.rows = 0 then ub
  else do
    let (_, _, _, mort) ← forN m.cols (fun t (s : Vec R × Vec R × Vec R × Mtx R) => do
      let (v, w, q, mort) := s
      let (_, q) ← vecInit q
      let (_, vd) ← mtxGetCol m t v.data
      let v : Vec R := { v with data := vd }
      let (w, q) ← forN t (fun g (s : Vec R × Vec R) => do
        let (w, q) := s
        let (_, wd) ← mtxGetCol mort g w.data
        let (_, w) ← vecProjectOnto { w with data := wd } v
        let (_, q) ← vecAdd q w q
        return (w, q)) (w, q)
      let (_, v) ← vecSub v q v
      let (_, mort) ← mtxSetCol mort t v.data
      return (v, w, q, mort)) (Vec.uninit junk m.rows, Vec.uninit junk m.rows, Vec.uninit junk m.rows, mort)
    return (0, mort)

/-- matrices.c:969-981 `zsl_mtx_cols_norm`, with an output different from the input. -/
def mtxColsNorm (junk : Nat → R) (m mnorm : Mtx R) : Out (Int × Mtx R) :=
  if m.rows = 0 then ub
  else do
    let (_, mnorm) ← forN m.cols (fun g (s : Vec R × Mtx R) => do
      let (v, mnorm) := s
      let (_, vd) ← mtxGetCol m g v.data
      let (_, v) ← vecToUnit { v with data := vd }
      let (_, mnorm) ← mtxSetCol mnorm g v.data
      return (v, mnorm)) (Vec.uninit junk m.rows, mnorm)
    return (0, mnorm)

/-- matrices.c:1143-1153, the symmetry test of `zsl_mtx_cholesky`; true when two mirrored elements differ. -/
def choleskyAsym (x0 : R) (m : Mtx R) : Out Bool := do
  let c ← forRet m.rows (fun i s =>
    forRet m.rows (fun j (s : R × R) => do
      let (_, a) ← mtxGet m i j s.1
      let (_, b) ← mtxGet m j i s.2
      if CReal.ne a b then return Ctl.ret true else return Ctl.next (a, b)) s) (x0, x0)
  match c with
  | .ret r => return r
  | .next _ => return false

/-- matrices.c:1134-1189 `zsl_mtx_cholesky`, with bounds checks on and an output different from the input. -/
def mtxCholesky (x0 : R) (m l : Mtx R) : Out (Int × Mtx R) :=
  if m.rows ≠ m.cols then ok (-EINVAL, l)
  else do
    let asym ← choleskyAsym x0 m
    if asym then return (-EINVAL, l)
    else if m.rows ≠ l.rows then return (-EINVAL, l)
    else if m.cols ≠ l.cols then return (-EINVAL, l)
    else do
      let (_, l) ← mtxInit l (some entryFnEmpty)
      let (_, _, l) ← forN m.cols (fun j (s : R × R × Mtx R) => do
        let (x, y, l) := s
        let (sum, x) ← forN j (fun k (s : R × R) => do
          let (_, x) ← mtxGet l j k s.2
          return (s.1 + x * x, x)) (lit 0, x)
        let (_, x) ← mtxGet m j j x
        let (_, l) ← mtxSet l j j (CReal.sqrt (x - sum))
        forN (m.cols - (j + 1)) (fun i' (s : R × R × Mtx R) => do
          let i := j + 1 + i'
          let (x, y, l) := s
          let (sum, x, y) ← forN j (fun k (s : R × R × R) => do
            let (_, x) ← mtxGet l j k s.2.1
            let (_, y) ← mtxGet l i k s.2.2
            return (s.1 + y * x, x, y)) (lit 0, x, y)
          let (_, x) ← mtxGet l j j x
          let (_, y) ← mtxGet m i j y
          let (_, l) ← mtxSet l i j ((y - sum) / x)
          return (x, y, l)) (x, y, l)) (x0, x0, l)
      return (0, l)

/-- matrices.c:1238-1241, `while (col < row2) { col2 *= 2.0; col *= 4.0; }`. -/
def balanceUp (fuel : Nat) (row2 col col2 : R) : Out (R × R) :=
  if CReal.lt col row2 then
    match fuel with
    | 0 => ub
    | fuel + 1 => balanceUp fuel row2 (col * lit 4) (col2 * lit 2)
  else ok (col, col2)

/-- matrices.c:1245-1248, `while (col > row2) { col2 /= 2.0; col /= 4.0; }`. -/
def balanceDown (fuel : Nat) (row2 col col2 : R) : Out (R × R) :=
  if CReal.gt col row2 then
    match fuel with
    | 0 => ub
    | fuel + 1 => balanceDown fuel row2 (col / lit 4) (col2 / lit 2)
  else ok (col, col2)

/-- matrices.c:1225-1266, one pass of the `for` loop of `zsl_mtx_balance`; the state is (done, row, col, data of `mout`). -/
def balanceRow (fuel n : Nat) (i : Nat) (s : Bool × R × R × List R) : Out (Bool × R × R × List R) := do
  let (done, row, col, d) := s
  let (row, col) ← forN n (fun j (s : R × R) => do
    let a ← rd d (i * n + j)
    let b ← rd d (j * n + i)
    return (s.1 + CReal.abs a, s.2 + CReal.abs b)) (row, col)
  let (done, d) ← (if CReal.ne col (lit 0) && CReal.ne row (lit 0) then do
      let sum := col + row
      let (col, col2) ← balanceUp fuel (row / lit 2) col (lit 1)
      let (col, col2) ← balanceDown fuel (row * lit 2) col col2
      if CReal.lt ((col + row) / col2) (lit 0.95 * sum) then do
        let row2 := lit 1 / col2
        let d ← forN n (fun k d => do
          let a ← rd d (i * n + k)
          let d ← wr d (i * n + k) (a * row2)
          let b ← rd d (k * n + i)
          wr d (k * n + i) (b * col2)) d
        return (false, d)
      else return (done, d)
    else return (done, d))
  return (done, lit 0, lit 0, d)

/-- matrices.c:1222-1267, the `while (!done)` loop of `zsl_mtx_balance`. -/
def balanceLoop (fuel n : Nat) (row col : R) (d : List R) : Out (List R) :=
  match fuel with
  | 0 => ub
  | fuel + 1 => do
    let (done, row, col, d) ← forN n (fun i s => balanceRow (fuel + 1) n i s) (true, row, col, d)
    if done then return d else balanceLoop fuel n row col d

/-- matrices.c:1191-1270 `zsl_mtx_balance`. The locals `row` and `col` are not initialised; `junk 0` and `junk 1` are their values. -/
def mtxBalance (fuel : Nat) (junk : Nat → R) (m mout : Mtx R) : Out (Int × Mtx R) :=
  if m.rows ≠ m.cols ∨ mout.rows ≠ mout.cols then ok (-EINVAL, mout)
  else if m.rows ≠ mout.rows then ok (-EINVAL, mout)
  else if m.cols ≠ mout.cols then ok (-EINVAL, mout)
  else do
    let (rc, mout) ← mtxCopy mout m
    if rc ≠ 0 then return (rc, mout)
    else do
      let d ← balanceLoop fuel m.rows (junk 0) (junk 1) mout.data
      return (rc, { mout with data := d })

/-- matrices.c:1272-1334 `zsl_mtx_householder`. -/
def mtxHouseholder (junk : Nat → R) (m h : Mtx R) (hessenberg : Bool) : Out (Int × Mtx R) := do
  let size := if hessenberg then szSub m.rows 1 else m.rows
  if size = 0 ∨ m.rows = 0 then ub
  else do
    let (_, e1) ← vecInit (Vec.uninit junk size)
    let d ← wr e1.data 0 (lit 1)
    let e1 : Vec R := { e1 with data := d }
    let (_, v2) ← mtxGetCol m 0 (junkArr junk m.rows)
    let v2 : Vec R := ⟨m.rows, v2⟩
    let (_, v) ← (if hessenberg then vecGetSubset v2 1 size (Vec.uninit junk size)
      else vecCopy (Vec.uninit junk size) v2)
    let v0 ← rd v.data 0
    let sign : R := if CReal.lt v0 (lit 0) then lit (-1) else lit 1
    let nv ← vecNorm v
    let (_, e1) ← vecScalarMult e1 (-sign * nv)
    let (_, v) ← vecAdd v e1 v
    let nv ← vecNorm v
    let (_, v) ← vecScalarDiv v nv
    let (_, mv) ← mtxFromArr (Mtx.uninit junk size 1) v.data
    let (_, mvt) ← mtxTrans junk mv (Mtx.uninit junk 1 size)
    let (_, vvt) ← mtxMult mv mvt (Mtx.uninit junk size size)
    let (_, id) ← mtxInit (Mtx.uninit junk size size) (some entryFnIdentity)
    let (_, vvt) ← mtxScalarMultD vvt (lit (-2))
    let (_, h2) ← mtxAdd id vvt (Mtx.uninit junk size size)
    let (_, h) ← mtxAugmDiag (junk 0) h2 h
    return (0, h)

/-- matrices.c:1353-1382, one pass of the loop of `zsl_mtx_qrd`; the state is (r2, hess, h, h2, qt, r). -/
def qrdStep (junk : Nat → R) (rows cols : Nat) (hessenberg : Bool) (g : Nat)
    (s : Mtx R × Mtx R × Mtx R × Mtx R × Mtx R × Mtx R) : Out (Mtx R × Mtx R × Mtx R × Mtx R × Mtx R × Mtx R) := do
  let (r2, hess, h, h2, qt, r) := s
  let st ← mtxReduceLoop (r.rows + 1) junk (junk 0) r
    ⟨Mtx.uninit junk (szSub rows g) (szSub cols g), Mtx.uninit junk r.rows r.cols, Mtx.uninit junk r.rows r.cols⟩
  let (_, hred) ← mtxHouseholder junk st.mred (Mtx.uninit junk (szSub rows g) (szSub rows g)) hessenberg
  let (_, h) ← mtxAugmDiag (junk 0) hred h
  let (_, r2) ← mtxMult h r r2
  let (_, h2) ← mtxMult h qt h2
  let (_, qt) ← mtxCopy qt h2
  if hessenberg then do
    let (_, hess) ← mtxMult r2 h hess
    let (_, r) ← mtxCopy r hess
    return (r2, hess, h, h2, qt, r)
  else do
    let (_, r) ← mtxCopy r r2
    return (r2, hess, h, h2, qt, r)

/-- matrices.c:1336-1389 `zsl_mtx_qrd`; returns `q` and `r`. The three arguments are different matrices. -/
def mtxQrd (junk : Nat → R) (m q r : Mtx R) (hessenberg : Bool) : Out (Int × Mtx R × Mtx R) :=
  if m.rows = 0 ∨ m.cols = 0 then ub
  else do
    let (_, h) ← mtxInit (Mtx.uninit junk m.rows m.rows) none
    let (_, qt) ← mtxInit (Mtx.uninit junk m.rows m.rows) (some entryFnIdentity)
    let (_, r) ← mtxCopy r m
    let (_, _, _, _, qt, r) ← forN (szSub m.rows 1) (fun g s => qrdStep junk m.rows m.cols hessenberg g s)
      (Mtx.uninit junk m.rows m.cols, Mtx.uninit junk m.rows m.cols, h, Mtx.uninit junk m.rows m.rows, qt, r)
    let (_, q) ← mtxTrans junk qt q
    return (0, q, r)

/-- matrices.c:1392-1417 `zsl_mtx_qrd_iter`. -/
def mtxQrdIter (junk : Nat → R) (m mout : Mtx R) (iter : Nat) : Out (Int × Mtx R) :=
  if m.rows = 0 then ub
  else do
    let (rc, mout) ← mtxCopy mout m
    if rc ≠ 0 then return (-EINVAL, mout)
    else do
      let (_, _, mout) ← forN iter (fun _ (s : Mtx R × Mtx R × Mtx R) => do
        let (q, r, mout) := s
        let (_, q, r) ← mtxQrd junk mout q r false
        let (_, mout) ← mtxMult r q mout
        return (q, r, mout)) (Mtx.uninit junk m.rows m.rows, Mtx.uninit junk m.rows m.rows, mout)
      return (0, mout)

/-- matrices.c:1482-1496, the scan of the subdiagonal in `zsl_mtx_eigenvalues` from position `g` on, with `last = sz_rows - 1`;
the state is (sdiag, diag, v->data, real). -/
def eigScan (fuel : Nat) (mout : Mtx R) (last g : Nat) (sdiag diag : R) (vd : List R) (real : Nat) :
    Out (R × R × List R × Nat) :=
  if g < last then
    match fuel with
    | 0 => ub
    | fuel + 1 => do
      let (_, sdiag) ← mtxGet mout (g + 1) g sdiag
      if CReal.ge sdiag (lit 1e-6) || CReal.le sdiag (-lit 1e-6) then
        eigScan fuel mout last (g + 2) sdiag diag vd real
      else do
        let (_, diag) ← mtxGet mout g g diag
        let vd ← wr vd real diag
        eigScan fuel mout last (g + 1) sdiag diag vd (real + 1)
  else ok (sdiag, diag, vd, real)

/-- matrices.c:1421-1523 `zsl_mtx_eigenvalues`. -/
def mtxEigenvalues (fuel : Nat) (junk : Nat → R) (m : Mtx R) (v : Vec R) (iter : Nat) : Out (Int × Vec R) :=
  if m.rows = 0 then ub
  else do
    let (_, mtemp) ← mtxBalance fuel junk m (Mtx.uninit junk m.rows m.rows)
    let (_, mout, mtemp2) ← mtxQrd junk mtemp (Mtx.uninit junk m.rows m.rows) (Mtx.uninit junk m.rows m.rows) true
    let (_, mout) ← mtxQrdIter junk mtemp2 mout iter
    let (_, v) ← vecInit v
    let sym ← mtxIsSym (junk 0) m
    if sym then do
      let (_, vd) ← forN m.rows (fun g (s : R × List R) => do
        let (_, diag) ← mtxGet mout g g s.1
        let vd ← wr s.2 g diag
        return (diag, vd)) (junk 0, v.data)
      return (0, { v with data := vd })
    else do
      let (sdiag, diag, vd, real) ← eigScan m.rows mout (szSub m.rows 1) 0 (junk 0) (junk 0) v.data 0
      let (_, sdiag) ← mtxGet mout (szSub m.rows 1) (szSub m.rows 2) sdiag
      let (vd, real) ← (if CReal.ge sdiag (lit 1e-6) || CReal.le sdiag (-lit 1e-6) then ok (vd, real)
        else do
          let (_, diag) ← mtxGet mout (szSub m.rows 1) (szSub m.rows 1) diag
          let vd ← wr vd real diag
          return (vd, real + 1))
      let v : Vec R := ⟨real, vd⟩
      if real ≠ m.rows then return (-ECOMPLEXVAL, v)
      else do
        let (_, v) ← vecZte v
        return (0, v)

/-- matrices.c:1597-1598, the test for a zero diagonal element in `zsl_mtx_eigenvectors`. -/
def isSmall (x : R) : Bool :=
  (CReal.ge x (lit 0) && CReal.lt x (lit 1e-6)) || (CReal.le x (lit 0) && CReal.gt x (-lit 1e-6))

/-- matrices.c:1568-1578, the list of different eigenvalues; returns `o` and `e_vals`. -/
def distinctEigen (rows : Nat) (k o : Vec R) : Out (Vec R × Nat) := do
  let (o, n) ← forN rows (fun q (s : Vec R × Nat) => do
    let (o, n) := s
    let a ← rd k.data q
    if CReal.ge a (lit 1e-6) || CReal.le a (-lit 1e-6) then do
      let a ← rd k.data q
      let c ← vecContains o a (lit 1e-6)
      if c = 0 then do
        let od ← wr o.data n a
        return ({ o with data := od }, n + 1)
      else return (o, n)
    else return (o, n)) (o, 0)
  let c ← vecContains k (lit 0) (lit 1e-6)
  return (o, if c > 0 then n + 1 else n)

/-- matrices.c:1604-1651, collecting the eigenvectors of one eigenvalue into the columns of `dst` from column `b` on; returns
(mi, f, dst, b). Used for both branches of the `orthonormal` test. -/
def collectEigen (rows : Nat) (x0 : R) (mi : Mtx R) (f : Vec R) (dst : Mtx R) (b : Nat) :
    Out (Mtx R × Vec R × Mtx R × Nat) := do
  let (_, mi, f, dst, b) ← forN rows (fun h (s : R × Mtx R × Vec R × Mtx R × Nat) => do
    let (x, mi, f, dst, b) := s
    let (_, x) ← mtxGet mi h h x
    if isSmall x then do
      let (_, mi) ← mtxSet mi h h (lit (-1))
      let (_, fd) ← mtxGetCol mi h f.data
      let (_, f) ← vecNeg { f with data := fd }
      let (_, dst) ← mtxSetCol dst b f.data
      return (x, mi, f, dst, b + 1)
    else return (x, mi, f, dst, b)) (x0, mi, f, dst, b)
  return (mi, f, dst, b)

/-- matrices.c:1586-1653, the eigenvectors for one eigenvalue `o`; the state is (mid, mi, evec, evec2, f, mev2, b). -/
def eigenvectorsOf (junk : Nat → R) (m : Mtx R) (orthonormal : Bool) (o : R)
    (s : Mtx R × Mtx R × Mtx R × Mtx R × Vec R × Mtx R × Nat) :
    Out (Mtx R × Mtx R × Mtx R × Mtx R × Vec R × Mtx R × Nat) := do
  let (mid, mi, evec, evec2, f, mev2, b) := s
  let (_, id) ← mtxInit (Mtx.uninit junk m.rows m.rows) (some entryFnIdentity)
  let (_, id) ← mtxScalarMultD id (-o)
  let (_, id) ← mtxAddD id m
  let (_, mid, mi) ← mtxGaussReduc junk id mid mi
  if orthonormal then do
    let (_, count) ← forN m.rows (fun h (s : R × Nat) => do
      let (_, x) ← mtxGet mi h h s.1
      return (x, if isSmall x then s.2 + 1 else s.2)) (junk 0, 0)
    let evec : Mtx R := { evec with cols := count }
    let evec2 : Mtx R := { evec2 with cols := count }
    let (mi, f, evec, _) ← collectEigen m.rows (junk 0) mi f evec 0
    let (_, evec2) ← mtxGramSchmidt junk evec evec2
    let (_, evec) ← mtxColsNorm junk evec2 evec
    let (f, mev2, b) ← forN count (fun gi (s : Vec R × Mtx R × Nat) => do
      let (f, mev2, b) := s
      let (_, fd) ← mtxGetCol evec gi f.data
      let (_, mev2) ← mtxSetCol mev2 b fd
      return ({ f with data := fd }, mev2, b + 1)) (f, mev2, b)
    return (mid, mi, evec, evec2, f, mev2, b)
  else do
    let (mi, f, mev2, b) ← collectEigen m.rows (junk 0) mi f mev2 b
    return (mid, mi, evec, evec2, f, mev2, b)

/-- matrices.c:1527-1671 `zsl_mtx_eigenvectors`. -/
def mtxEigenvectors (fuel : Nat) (junk : Nat → R) (m mev : Mtx R) (iter : Nat) (orthonormal : Bool) :
    Out (Int × Mtx R) :=
  if m.rows = 0 then ub
  else do
    let (_, mev2) ← mtxInit (Mtx.uninit junk m.rows m.rows) none
    let (_, o) ← vecInit (Vec.uninit junk m.rows)
    let (_, k) ← mtxEigenvalues fuel junk m (Vec.uninit junk m.rows) iter
    let (o, n) ← distinctEigen m.rows k o
    let u := Mtx.uninit junk m.rows m.rows
    let (_, _, _, _, f, mev2, b) ← forN n (fun g s => do
      let og ← rd o.data g
      eigenvectorsOf junk m orthonormal og s) (u, u, u, u, Vec.uninit junk m.rows, mev2, 0)
    let mev : Mtx R := { mev with cols := b }
    let (_, mev) ← forN b (fun s (st : List R × Mtx R) => do
      let (_, fd) ← mtxGetCol mev2 s st.1
      let (_, mev) ← mtxSetCol st.2 s fd
      return (fd, mev)) (f.data, mev)
    if b ≠ m.cols then return (-EEIGENSIZE, mev) else return (0, mev)

/-- matrices.c:1675-1753 `zsl_mtx_svd`; returns `u`, `e` and `v`. -/
def mtxSvd (fuel : Nat) (junk : Nat → R) (m u e v : Mtx R) (iter : Nat) : Out (Int × Mtx R × Mtx R × Mtx R) :=
  if m.rows = 0 ∨ m.cols = 0 then ub
  else do
    let (_, at') ← mtxTrans junk m (Mtx.uninit junk m.cols m.rows)
    let (_, aat) ← mtxMult m at' (Mtx.uninit junk m.rows m.rows)
    let (_, ata) ← mtxMult at' m (Mtx.uninit junk m.cols m.cols)
    let min := if m.rows ≤ m.cols then m.rows else m.cols
    let (_, ev) ← (if min < m.cols then mtxEigenvalues fuel junk aat (Vec.uninit junk min) iter
      else mtxEigenvalues fuel junk ata (Vec.uninit junk min) iter)
    let (_, e) ← mtxInit e none
    let e ← forN min (fun g e => do
      let a ← rd ev.data g
      let (_, e) ← mtxSet e g g (CReal.sqrt a)
      return e) e
    let (_, v) ← mtxEigenvectors fuel junk ata v iter true
    let (_, _, u, pu) ← forN min (fun i (s : R × List R × Mtx R × Nat) => do
      let (d, ui, u, pu) := s
      let (_, ui) ← mtxGetCol v i ui
      let (_, ui2) ← mtxFromArr (Mtx.uninit junk m.cols 1) ui
      let (_, d) ← mtxGet e i i d
      let (_, ui3) ← mtxMult m ui2 (Mtx.uninit junk m.rows 1)
      if isSmall d then return (d, ui, u, pu + 1)
      else do
        let (_, ui3) ← mtxScalarMultD ui3 (lit 1 / d)
        let (_, uv) ← vecFromArr ⟨m.rows, ui⟩ ui3.data
        let (_, u) ← mtxSetCol u i uv.data
        return (d, uv.data, u, pu)) (junk 0, junkArr junk m.rows, u, 0)
    let (_, upri) ← mtxEigenvectors fuel junk aat (Mtx.uninit junk m.rows m.rows) iter true
    let (_, u) ← forN (m.rows - (min - pu)) (fun f' (s : List R × Mtx R) => do
      let f := min - pu + f'
      let (_, hu) ← mtxGetCol upri f s.1
      let (_, u) ← mtxSetCol s.2 f hu
      return (hu, u)) (junkArr junk m.rows, u)
    return (0, u, e, v)

/-- matrices.c:1782-1792, the inversion of the singular values in `zsl_mtx_pinv`. -/
def pinvInvert (x0 : R) (min : Nat) (e : Mtx R) : Out (Mtx R) := do
  let (_, e) ← forN min (fun g (s : R × Mtx R) => do
    let (_, x) ← mtxGet s.2 g g s.1
    if CReal.lt x (lit 1e-6) || CReal.gt x (-lit 1e-6) then do
      let x := lit 1 / x
      let (_, e) ← mtxSet s.2 g g x
      return (x, e)
    else return (x, s.2)) (x0, e)
  return e

/-- matrices.c:1757-1803 `zsl_mtx_pinv`. -/
def mtxPinv (fuel : Nat) (junk : Nat → R) (m pinv : Mtx R) (iter : Nat) : Out (Int × Mtx R) :=
  if m.rows = 0 ∨ m.cols = 0 then ub
  else do
    let (_, u, e, v) ← mtxSvd fuel junk m (Mtx.uninit junk m.rows m.rows) (Mtx.uninit junk m.rows m.cols)
      (Mtx.uninit junk m.cols m.cols) iter
    let (_, ut) ← mtxTrans junk u (Mtx.uninit junk m.rows m.rows)
    let min := if m.rows ≤ m.cols then m.rows else m.cols
    let e ← pinvInvert (junk 0) min e
    let (_, et) ← mtxTrans junk e (Mtx.uninit junk m.cols m.rows)
    let (_, pas) ← mtxMult v et (Mtx.uninit junk m.cols m.rows)
    let (_, pinv) ← mtxMult pas ut pinv
    return (0, pinv)

end Verif
