import Verif.Model.Matrices
import Verif.Model.Quaternions
import Verif.Model.Attitude

/-!
# Model of the print functions

What is printed is a list of tokens: a number (the conversion of the number to text is left to the C library) or a piece of literal text.
-/

namespace Verif

open Out

/-- A piece of output: `%f` or `%.16f` of a number, or literal text. The formats of vectors.c:515-523, matrices.c:1930-1952, quaternions.c:714-720, euler.c:24-28. -/
inductive Tok (R : Type)
  | num (x : R)
  | num16 (x : R)
  | text (s : String)

variable {R : Type} [CReal R]

/-- vectors.c:515-523 `zsl_vec_print`. -/
def vecPrint (v : Vec R) : Out (Int × List (Tok R)) := do
  let o ← forN v.sz (fun g o => do
    let x ← rd v.data g
    return o ++ [Tok.num x, Tok.text " "]) []
  return (0, o ++ [Tok.text "\n\n"])

/-- matrices.c:1930-1952 `zsl_mtx_print`; `x0` is what the local `x` holds. The position in the error message is left out. -/
def mtxPrint (x0 : R) (m : Mtx R) : Out (Int × List (Tok R)) := do
  let c ← forRet m.rows (fun i o => do
    let c ← forRet m.cols (fun j o => do
      let (rc, x) ← mtxGet m i j x0
      if rc ≠ 0 then return Ctl.ret (-EINVAL, o ++ [Tok.text "Error reading!\n"])
      else return Ctl.next (o ++ [Tok.num x, Tok.text " "])) o
    match c with
    | .ret r => return Ctl.ret r
    | .next o => return Ctl.next (o ++ [Tok.text "\n"])) []
  match c with
  | .ret r => return r
  | .next o => return (0, o ++ [Tok.text "\n"])

/-- quaternions.c:714-720 `zsl_quat_print`. -/
def quatPrint (q : Quat R) : Int × List (Tok R) :=
  (0, [.num16 q.r, .text " + ", .num16 q.i, .text " i + ", .num16 q.j, .text " j + ", .num16 q.k, .text " k\n"])

/-- euler.c:24-28 `zsl_eul_print`. -/
def eulPrint (e : Euler R) : Int × List (Tok R) :=
  (0, [.text "(", .num e.x, .text ", ", .num e.y, .text ", ", .num e.z, .text ")\n\n"])

end Verif
