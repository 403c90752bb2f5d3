import Verif.Model.AliasMat

/-!
# Memory model of the iterated reduction
-/

namespace Verif

open Out

variable {R : Type} [CReal R]

/-- The assignments `p->sz_rows = r; p->sz_cols = c;` with values read before. For example matrices.c:692-695. -/
def MMem.setSize (mem : MMem R) (p r c : Nat) : MMem R := Function.update mem p { mem p with rows := r, cols := c }

/-- matrices.c:679-712 `zsl_mtx_reduce_iter(m, mred, place1, place2)` on pointers. The size of `m` (lines 692-695) or `place1` (702-703) is read again
for every assignment; the two fields of one matrix are assigned together here, which makes no difference except in lines 702-703 with
`place1 == place2`, where each field depends on itself only. -/
def mtxReduceIterMem (junk : Nat → R) (x0 : R) (mem : MMem R) (m mred place1 place2 : Nat) : Out (Int × MMem R) := do
  let mem ← (do
    if (mem m).rows = (mem place1).rows then do
      let (_, mem) ← mtxCopyMem mem place1 m
      return mem
    else return mem)
  if (mem place1).rows = (mem mred).rows then do
    let (_, mem) ← mtxCopyMem mem mred place1
    let mem := mem.setSize place1 (mem m).rows (mem m).cols
    let mem := mem.setSize place2 (mem m).rows (mem m).cols
    return (0, mem)
  else do
    let mem := mem.setSize place2 (szSub (mem place1).rows 1) (szSub (mem place1).cols 1)
    let (_, mem) ← mtxReduceMem junk x0 mem place1 place2 0 0
    let mem := mem.setSize place1 (szSub (mem place1).rows 1) (szSub (mem place1).cols 1)
    let (_, mem) ← mtxCopyMem mem place1 place2
    return (-EAGAIN, mem)

end Verif
