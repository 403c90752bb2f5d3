import Verif.Model.AliasMat
import Verif.Model.Statistics
import Verif.Model.MatDecomp

/-!
# Calls whose arguments share storage: mode, covariance matrix, Householder matrix, eigenvectors, singular values, pseudo-inverse

Same conventions as in `Verif.Model.Alias`: a pointer is a `Nat`, equal pointers are the same object.
-/

namespace Verif

open Out

variable {R : Type} [CReal R]

/-- statistics.c:257-307 `zsl_sta_mode(v, w)`: `w` is cleared before `v` is read. `u` and `w_temp` are locals. -/
def staModeMem (junk : Nat → R) (mem : VMem R) (v w : Nat) : Out (Int × VMem R) :=
  if (mem v).sz ≠ (mem w).sz then ok (-EINVAL, mem)
  else if (mem v).sz = 0 then ub
  else do
    let (_, mem) ← onObj mem w vecInit
    let (u, maxcount) ← forN (mem v).sz (fun i (s : List R × Nat) => do
      let a ← rd (mem v).data i
      let count ← vecContains (mem v) a (lit 1e-7)
      let u ← wr s.1 i (CReal.ofNat count)
      return (u, if count > s.2 then count else s.2)) (junkArr junk (mem v).sz, 0)
    let (wt, j) ← forN (mem v).sz (fun i (s : List R × Nat) => do
      let c ← rd u i
      if CReal.eq c (CReal.ofNat maxcount) then do
        let a ← rd (mem v).data i
        let wt ← wr s.1 s.2 a
        return (wt, s.2 + 1)
      else return s) (junkArr junk (mem v).sz, 0)
    let (mem, count) ← forN j (fun i (s : VMem R × Nat) => do
      let a ← rd wt i
      if CReal.ge a (lit 1e-5) || CReal.le a (lit 1e-5) then do
        let k ← vecContains (s.1 w) a (lit 1e-5)
        if k = 0 then do
          let wd ← wr (s.1 w).data s.2 a
          return (s.1.setData w wd, s.2 + 1)
        else return s
      else return s) (mem, 0)
    let z ← vecContains ⟨j, wt⟩ (lit 0) (lit 1e-5)
    let count := if z > 0 then count + 1 else count
    return (0, Function.update mem w { mem w with sz := count })

/-- statistics.c:408-432 `zsl_sta_covar_mtx(m, mc)`: the columns are read again for every element. -/
def staCovarMtxMem (junk : Nat → R) (mem : MMem R) (m mc : Nat) : Out (Int × MMem R) :=
  if (mem mc).rows ≠ (mem mc).cols ∨ (mem mc).cols ≠ (mem m).cols then ok (-EINVAL, mem)
  else if (mem m).rows = 0 then ub
  else do
    let (mem, _, _) ← forN (mem m).cols (fun i s =>
      forN (mem m).cols (fun j (s : MMem R × List R × List R) => do
        let (_, v1) ← mtxGetCol (s.1 m) i s.2.1
        let (_, v2) ← mtxGetCol (s.1 m) j s.2.2
        let (_, c) ← staCovar junk ⟨(s.1 m).rows, v1⟩ ⟨(s.1 m).rows, v2⟩ (junk 0)
        let d ← wr (s.1 mc).data (i * (s.1 m).cols + j) c
        return (s.1.setData mc d, v1, v2)) s) (mem, junkArr junk (mem m).rows, junkArr junk (mem m).rows)
    return (0, mem)

/-- matrices.c:1272-1334 `zsl_mtx_householder(m, h, hessenberg)`: all but `m` and `h` are locals, and `h` is written by the last call. -/
def mtxHouseholderMem (junk : Nat → R) (mem : MMem R) (m h : Nat) (hessenberg : Bool) : Out (Int × MMem R) := do
  let size := if hessenberg then szSub (mem m).rows 1 else (mem m).rows
  if size = 0 ∨ (mem m).rows = 0 then ub
  else do
    let (_, e1) ← vecInit (Vec.uninit junk size)
    let d ← wr e1.data 0 (lit 1)
    let e1 : Vec R := { e1 with data := d }
    let (_, v2) ← mtxGetCol (mem m) 0 (junkArr junk (mem m).rows)
    let v2 : Vec R := ⟨(mem m).rows, v2⟩
    let (_, v) ← (if hessenberg then vecGetSubset v2 1 size (Vec.uninit junk size)
      else vecCopy (Vec.uninit junk size) v2)
    let v0 ← rd v.data 0
    let sign : R := if CReal.lt v0 (lit 0) then lit (-1) else lit 1
    let nv ← vecNorm v
    let (_, e1) ← vecScalarMult e1 (-sign * nv)
    let (_, v) ← vecAdd v e1 v
    let nv ← vecNorm v
    let (_, v) ← vecScalarDiv v nv
    let (_, mv) ← mtxFromArr (Mtx.uninit junk size 1) v.data
    let (_, mvt) ← mtxTrans junk mv (Mtx.uninit junk 1 size)
    let (_, vvt) ← mtxMult mv mvt (Mtx.uninit junk size size)
    let (_, id) ← mtxInit (Mtx.uninit junk size size) (some entryFnIdentity)
    let (_, vvt) ← mtxScalarMultD vvt (lit (-2))
    let (_, h2) ← mtxAdd id vvt (Mtx.uninit junk size size)
    let (_, mem) ← onObj mem h (fun x => mtxAugmDiag (junk 0) h2 x)
    return (0, mem)

/-- matrices.c:1527-1671 `zsl_mtx_eigenvectors(m, mev, iter, orthonormal)`: the eigenvectors are collected in a local; then the width of
`mev` is set, its columns are written, and the width is compared with that of `m`. -/
def mtxEigenvectorsMem (fuel : Nat) (junk : Nat → R) (mem : MMem R) (m mev : Nat) (iter : Nat) (orthonormal : Bool) :
    Out (Int × MMem R) :=
  if (mem m).rows = 0 then ub
  else do
    let (_, mev2) ← mtxInit (Mtx.uninit junk (mem m).rows (mem m).rows) none
    let (_, o) ← vecInit (Vec.uninit junk (mem m).rows)
    let (_, k) ← mtxEigenvalues fuel junk (mem m) (Vec.uninit junk (mem m).rows) iter
    let (o, n) ← distinctEigen (mem m).rows k o
    let u := Mtx.uninit junk (mem m).rows (mem m).rows
    let (_, _, _, _, f, mev2, b) ← forN n (fun g s => do
      let og ← rd o.data g
      eigenvectorsOf junk (mem m) orthonormal og s) (u, u, u, u, Vec.uninit junk (mem m).rows, mev2, 0)
    let mem : MMem R := Function.update mem mev { mem mev with cols := b }
    let (_, mem) ← forN b (fun s (st : List R × MMem R) => do
      let (_, fd) ← mtxGetCol mev2 s st.1
      let (_, mem) ← onObj st.2 mev (fun x => mtxSetCol x s fd)
      return (fd, mem)) (f.data, mem)
    if b ≠ (mem m).cols then return (-EEIGENSIZE, mem) else return (0, mem)

/-- matrices.c:1675-1753 `zsl_mtx_svd(m, u, e, v, iter)`: `e` is written first, then `v`, then `u`; `m` is read again after `e` and `v` are
written. -/
def mtxSvdMem (fuel : Nat) (junk : Nat → R) (mem : MMem R) (m u e v : Nat) (iter : Nat) : Out (Int × MMem R) :=
  if (mem m).rows = 0 ∨ (mem m).cols = 0 then ub
  else do
    let rows := (mem m).rows
    let cols := (mem m).cols
    let (_, at') ← mtxTrans junk (mem m) (Mtx.uninit junk cols rows)
    let (_, aat) ← mtxMult (mem m) at' (Mtx.uninit junk rows rows)
    let (_, ata) ← mtxMult at' (mem m) (Mtx.uninit junk cols cols)
    let min := if rows ≤ cols then rows else cols
    let (_, ev) ← (if min < cols then mtxEigenvalues fuel junk aat (Vec.uninit junk min) iter
      else mtxEigenvalues fuel junk ata (Vec.uninit junk min) iter)
    let (_, mem) ← onObj mem e (fun x => mtxInit x none)
    let mem ← forN min (fun g (mem : MMem R) => do
      let a ← rd ev.data g
      let (_, mem) ← onObj mem e (fun x => mtxSet x g g (CReal.sqrt a))
      return mem) mem
    let (_, mem) ← onObj mem v (fun x => mtxEigenvectors fuel junk ata x iter true)
    let (_, _, mem, pu) ← forN min (fun i (s : R × List R × MMem R × Nat) => do
      let (d, ui, mem, pu) := s
      let (_, ui) ← mtxGetCol (mem v) i ui
      let (_, ui2) ← mtxFromArr (Mtx.uninit junk cols 1) ui
      let (_, d) ← mtxGet (mem e) i i d
      let (_, ui3) ← mtxMult (mem m) ui2 (Mtx.uninit junk rows 1)
      if isSmall d then return (d, ui, mem, pu + 1)
      else do
        let (_, ui3) ← mtxScalarMultD ui3 (lit 1 / d)
        let (_, uv) ← vecFromArr ⟨rows, ui⟩ ui3.data
        let (_, mem) ← onObj mem u (fun x => mtxSetCol x i uv.data)
        return (d, uv.data, mem, pu)) (junk 0, junkArr junk rows, mem, 0)
    let (_, upri) ← mtxEigenvectors fuel junk aat (Mtx.uninit junk rows rows) iter true
    let (_, mem) ← forN ((mem m).rows - (min - pu)) (fun f' (s : List R × MMem R) => do
      let f := min - pu + f'
      let (_, hu) ← mtxGetCol upri f s.1
      let (_, mem) ← onObj s.2 u (fun x => mtxSetCol x f hu)
      return (hu, mem)) (junkArr junk rows, mem)
    return (0, mem)

/-- matrices.c:1757-1803 `zsl_mtx_pinv(m, pinv, iter)`: all but `m` and `pinv` are locals, and `pinv` is written by the last call. -/
def mtxPinvMem (fuel : Nat) (junk : Nat → R) (mem : MMem R) (m pinv : Nat) (iter : Nat) : Out (Int × MMem R) :=
  if (mem m).rows = 0 ∨ (mem m).cols = 0 then ub
  else do
    let (_, u, e, v) ← mtxSvd fuel junk (mem m) (Mtx.uninit junk (mem m).rows (mem m).rows) (Mtx.uninit junk (mem m).rows (mem m).cols)
      (Mtx.uninit junk (mem m).cols (mem m).cols) iter
    let (_, ut) ← mtxTrans junk u (Mtx.uninit junk (mem m).rows (mem m).rows)
    let min := if (mem m).rows ≤ (mem m).cols then (mem m).rows else (mem m).cols
    let e ← pinvInvert (junk 0) min e
    let (_, et) ← mtxTrans junk e (Mtx.uninit junk (mem m).cols (mem m).rows)
    let (_, pas) ← mtxMult v et (Mtx.uninit junk (mem m).cols (mem m).rows)
    let (_, mem) ← onObj mem pinv (fun x => mtxMult pas ut x)
    return (0, mem)

end Verif
