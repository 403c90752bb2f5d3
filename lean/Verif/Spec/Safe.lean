import Verif.Model.Matrices

/-!
# Vocabulary of the memory safety theorems

`x.sat P` (Base/Out.lean) says that the code `x` finishes without undefined behaviour and that its result satisfies `P`. The
theorems hold for every scalar type with the operations of `CReal`, so for every content of the buffers, including NaN and
infinities, and for rounded arithmetic.
-/

namespace Verif

variable {R : Type}

/-- `y` has the size and the buffer length of `x`. -/
def Vec.Like (x y : Vec R) : Prop := y.sz = x.sz ∧ y.data.length = x.data.length

/-- `y` has the shape and the buffer length of `x`. -/
def Mtx.Like (x y : Mtx R) : Prop := y.rows = x.rows ∧ y.cols = x.cols ∧ y.data.length = x.data.length

end Verif
