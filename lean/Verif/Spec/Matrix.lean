import Mathlib.LinearAlgebra.Matrix.Defs
import Mathlib.Logic.Equiv.Fin.Basic
import Verif.Base.XR
import Verif.Model.Matrices

/-!
# What it means for a `struct zsl_mtx` to hold a matrix

The only vocabulary the matrix theorems use besides Mathlib's matrices.
-/

namespace Verif

/-- The `struct zsl_mtx` of shape `r × c` holding `A` in row-major order, with the cells `t` behind it. -/
def mtxOf {R : Type} {r c : ℕ} (A : Matrix (Fin r) (Fin c) R) (t : List R) : Mtx R :=
  ⟨r, c, (List.ofFn fun k : Fin (r * c) => A k.divNat k.modNat) ++ t⟩

/-- The `struct zsl_mtx` holding the real matrix `A`. -/
def mat {r c : ℕ} (A : Matrix (Fin r) (Fin c) ℝ) (t : List XR) : Mtx XR := mtxOf (A.map XR.fin) t

/-- Cells of a vector `x`, followed by `t`. -/
def arrOf {R : Type} {n : ℕ} (x : Fin n → R) (t : List R) : List R := List.ofFn x ++ t

/-- Cells of a real vector `x`, followed by `t`. -/
def arr {n : ℕ} (x : Fin n → ℝ) (t : List XR) : List XR := List.ofFn (fun i => XR.fin (x i)) ++ t

/-- The `struct zsl_vec` holding the real vector `x`. -/
def vec {n : ℕ} (x : Fin n → ℝ) (t : List XR) : Vec XR := ⟨n, arr x t⟩

end Verif
