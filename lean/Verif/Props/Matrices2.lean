import Mathlib.LinearAlgebra.Matrix.Determinant.Basic
import Mathlib.Tactic.NormNum
import Verif.Props.Matrices1

/-!
# Properties of matrices: component-wise operations, products, row operations (C17, C18, C19, C20)
-/

set_option linter.unusedSectionVars false

namespace Verif

open Out

variable {R : Type} [CReal R] {r c n p q : ℕ}

/-! ## C17: component-wise operations -/

/-- The mathematical function an operation of `zsl_mtx_unary_op` stands for. -/
noncomputable def unaryReal : UnaryOp → ℝ → ℝ
  | .increment => fun x => x + 1
  | .decrement => fun x => x - 1
  | .negative => fun x => -x
  | .round => XR.rround
  | .abs => fun x => |x|
  | .floor => fun x => ⌊x⌋
  | .ceil => fun x => ⌈x⌉
  | .exp => Real.exp
  | .log => Real.log
  | .log10 => Real.logb 10
  | .sqrt => Real.sqrt
  | .sin => Real.sin
  | .cos => Real.cos
  | .tan => Real.tan
  | .asin => Real.arcsin
  | .acos => Real.arccos
  | .atan => Real.arctan
  | .sinh => Real.sinh
  | .cosh => Real.cosh
  | .tanh => Real.tanh
  | .other => id

/-- Where that function is defined. -/
def unaryDom : UnaryOp → Set ℝ
  | .log => {x | 0 < x}
  | .log10 => {x | 0 < x}
  | .sqrt => {x | 0 ≤ x}
  | .asin => Set.Icc (-1) 1
  | .acos => Set.Icc (-1) 1
  | _ => Set.univ

theorem unaryStep_some {op : UnaryOp} (hop : op ≠ .other) (a : R) : ∃ y, unaryStep op a = some y := by
  cases op <;> first | exact ⟨_, rfl⟩ | exact absurd rfl hop

theorem unaryStep_real {op : UnaryOp} (hop : op ≠ .other) {x : ℝ} (hx : x ∈ unaryDom op) :
    unaryStep op (XR.fin x) = some (XR.fin (unaryReal op x)) := by
  cases op <;> simp only [unaryDom] at hx <;> simp only [unaryStep, unaryReal]
  case other => exact absurd rfl hop
  case log => rw [XR.fin_log hx]
  case log10 => rw [XR.fin_log10 hx]
  case sqrt => rw [XR.fin_sqrt hx]
  case asin => rw [XR.fin_asin hx]
  case acos => rw [XR.fin_acos hx]
  all_goals first | rfl | simp [XR.lit_eq]

theorem mtxUnaryOp_eq (A F : Matrix (Fin r) (Fin c) R) (t : List R) (op : UnaryOp)
    (h : ∀ i j, unaryStep op (A i j) = some (F i j)) :
    mtxUnaryOp (mtxOf A t) op = ok (0, mtxOf F t) := by
  unfold mtxUnaryOp
  rw [mtxOf_rows, mtxOf_cols, mtxOf_eq, mtxOf_eq, Nat.mul_comm, mkM_data, forRet_flat (ext F)]
  · rfl
  · intro k hk
    rw [mkD_fmix_rd _ _ _ hk, ok_bind, ext_lt _ (div_lt_rows hk) (Nat.mod_lt _ (pos_of_lt_mul hk)),
      ext_lt _ (div_lt_rows hk) (Nat.mod_lt _ (pos_of_lt_mul hk)), h]

/-- C17. For every operation of the enum and every scalar type, `zsl_mtx_unary_op` applies one scalar function to every
element and returns 0. -/
theorem mtx_unary_op_all (op : UnaryOp) (hop : op ≠ .other) :
    ∃ f : R → R, ∀ (r c : ℕ) (A : Matrix (Fin r) (Fin c) R) (t : List R),
      mtxUnaryOp (mtxOf A t) op = ok (0, mtxOf (A.map f) t) := by
  choose f hf using fun a : R => unaryStep_some hop a
  exact ⟨f, fun r c A t => mtxUnaryOp_eq A _ t op fun i j => hf _⟩

/-- C17. On real data inside the domain of the function, the scalar function is the mathematical one. -/
theorem mtx_unary_op_correct (A : Matrix (Fin r) (Fin c) ℝ) (t : List XR) (op : UnaryOp)
    (hop : op ≠ .other) (hdom : ∀ i j, A i j ∈ unaryDom op) :
    mtxUnaryOp (mat A t) op = ok (0, mat (A.map (unaryReal op)) t) :=
  mtxUnaryOp_eq _ _ t op fun i j => unaryStep_real hop (hdom i j)

/-- C17. A number outside the enum is refused with `-ENOSYS`, without writing. -/
theorem mtx_unary_op_unknown (m : Mtx R) (h : m.WF) (hne : 0 < m.cols * m.rows) :
    mtxUnaryOp m .other = ok (-ENOSYS, m) := by
  unfold mtxUnaryOp
  rw [forRet_first (x := (-ENOSYS, m.data)) hne]
  · rfl
  · unfold Mtx.WF at h
    rw [rd_lt (by rw [Nat.mul_comm] at h; omega)]
    rfl

/-- Non-vacuity: square roots of a 2x2 matrix. -/
example : mtxUnaryOp (mat !![4, 9; 16, 0] []) .sqrt = ok (0, mat !![2, 3; 4, 0] []) := by
  rw [mtx_unary_op_correct _ _ _ (by decide) (by
    intro i j
    fin_cases i <;> fin_cases j <;> simp [unaryDom])]
  congr 3
  funext i j
  fin_cases i <;> fin_cases j <;> simp [unaryReal]
  · rw [show (4 : ℝ) = 2 ^ 2 by norm_num, Real.sqrt_sq (by norm_num)]
  · rw [show (9 : ℝ) = 3 ^ 2 by norm_num, Real.sqrt_sq (by norm_num)]
  · rw [show (16 : ℝ) = 4 ^ 2 by norm_num, Real.sqrt_sq (by norm_num)]

theorem mtxBinaryOp_eq (A B C F : Matrix (Fin r) (Fin c) R) (t u w : List R) (op : BinaryOp)
    (h : ∀ i j, binaryStep op (A i j) (B i j) = (some (F i j), true)) :
    mtxBinaryOp (mtxOf A t) (mtxOf B u) (mtxOf C w) op = ok (0, mtxOf F w) := by
  unfold mtxBinaryOp
  rw [if_neg (by simp), mtxOf_rows, mtxOf_cols, mtxOf_eq, mtxOf_eq, mtxOf_eq, mtxOf_eq,
    Nat.mul_comm, mkM_data, mkM_data, mkM_data, forRet_flat (ext F)]
  · rfl
  · intro k hk
    have hd := div_lt_rows hk
    have hm := Nat.mod_lt k (pos_of_lt_mul hk)
    rw [mkD_rdk _ _ hk, mkD_rdk _ _ hk, ok_bind, ok_bind, ext_lt _ hd hm, ext_lt _ hd hm,
      ext_lt _ hd hm, h]

theorem mtxBinaryOpD_eq (A B F : Matrix (Fin r) (Fin c) R) (t u : List R) (op : BinaryOp)
    (h : ∀ i j, binaryStep op (A i j) (B i j) = (some (F i j), true)) :
    mtxBinaryOpD (mtxOf A t) (mtxOf B u) op = ok (0, mtxOf F t) := by
  unfold mtxBinaryOpD
  rw [if_neg (by simp), mtxOf_rows, mtxOf_cols, mtxOf_eq, mtxOf_eq, mtxOf_eq,
    Nat.mul_comm, mkM_data, mkM_data, forRet_flat (ext F)]
  · rfl
  · intro k hk
    have hd := div_lt_rows hk
    have hm := Nat.mod_lt k (pos_of_lt_mul hk)
    rw [mkD_fmix_rd _ _ _ hk, mkD_rdk _ _ hk, ok_bind, ok_bind, ext_lt _ hd hm, ext_lt _ hd hm,
      ext_lt _ hd hm, h]

/-- C17 `_partial`. Addition, subtraction and multiplication, for every scalar type. Missing: the ten operations from MEAN to GEQ,
for which the claim is false (`mtx_binary_op_fallthrough`). -/
theorem mtx_binary_op_partial (A B C : Matrix (Fin r) (Fin c) R) (t u w : List R) :
    mtxBinaryOp (mtxOf A t) (mtxOf B u) (mtxOf C w) .add =
      ok (0, mtxOf (Matrix.of fun i j => A i j + B i j) w) ∧
    mtxBinaryOp (mtxOf A t) (mtxOf B u) (mtxOf C w) .sub =
      ok (0, mtxOf (Matrix.of fun i j => A i j - B i j) w) ∧
    mtxBinaryOp (mtxOf A t) (mtxOf B u) (mtxOf C w) .mult =
      ok (0, mtxOf (Matrix.of fun i j => A i j * B i j) w) :=
  ⟨mtxBinaryOp_eq _ _ _ _ _ _ _ _ fun _ _ => rfl, mtxBinaryOp_eq _ _ _ _ _ _ _ _ fun _ _ => rfl,
    mtxBinaryOp_eq _ _ _ _ _ _ _ _ fun _ _ => rfl⟩

/-- C17. Division of real matrices, with `x / 0 = 0`. -/
theorem mtx_binary_op_div (A B : Matrix (Fin r) (Fin c) ℝ) (C : Matrix (Fin r) (Fin c) XR)
    (t u w : List XR) :
    mtxBinaryOp (mat A t) (mat B u) (mtxOf C w) .div =
      ok (0, mat (Matrix.of fun i j => if B i j = 0 then 0 else A i j / B i j) w) := by
  refine mtxBinaryOp_eq _ _ _ _ _ _ _ _ fun i j => ?_
  simp only [binaryStep, Matrix.map_apply, Matrix.of_apply, XR.lit_eq, Rat.cast_zero]
  by_cases h : B i j = 0
  · rw [if_pos ((XR.fin_eq _ _).2 h), if_pos h]
  · rw [if_neg (by rw [XR.fin_eq]; exact h), if_neg h, XR.fin_div h]

/-- C17. A shape mismatch is refused without writing. -/
theorem mtx_binary_op_shape (ma mb mc : Mtx R) (op : BinaryOp)
    (h : ma.rows ≠ mb.rows ∨ mb.rows ≠ mc.rows ∨ ma.cols ≠ mb.cols ∨ mb.cols ≠ mc.cols) :
    mtxBinaryOp ma mb mc op = ok (-EINVAL, mc) := by
  unfold mtxBinaryOp
  rw [if_pos h]

/-- C17, negation: for each of the ten operations from MEAN to GEQ, on any two non-empty matrices of equal shape, the call fails
with `-ENOSYS` and the first element of the output is overwritten with the result of `a >= b`. -/
theorem mtx_binary_op_fallthrough (A B C : Matrix (Fin (r + 1)) (Fin (c + 1)) R) (t u w : List R)
    (op : BinaryOp)
    (hop : op ∈ [BinaryOp.mean, .expon, .min, .max, .equal, .nequal, .less, .great, .leq, .geq]) :
    mtxBinaryOp (mtxOf A t) (mtxOf B u) (mtxOf C w) op =
      ok (-ENOSYS, mtxOf (Matrix.of fun i j =>
        if i = 0 ∧ j = 0 then (if CReal.ge (A 0 0) (B 0 0) then lit 1 else lit 0) else C i j) w) := by
  have hstep : ∀ a b : R, binaryStep op a b = (some (boolReal (CReal.ge a b)), false) := by
    intro a b
    simp only [List.mem_cons, List.not_mem_nil, or_false] at hop
    rcases hop with h | h | h | h | h | h | h | h | h | h <;> subst h <;> rfl
  unfold mtxBinaryOp
  rw [if_neg (by simp), mtxOf_rows, mtxOf_cols, mtxOf_eq, mtxOf_eq, mtxOf_eq, mkM_data, mkM_data,
    mkM_data]
  have hw : wr (mkD (r + 1) (c + 1) (ext C) w) 0 (boolReal (CReal.ge (A 0 0) (B 0 0))) =
      ok (mkD (r + 1) (c + 1) (upd (ext C) 0 0 (boolReal (CReal.ge (A 0 0) (B 0 0)))) w) := by
    have := mkD_wr (r := r + 1) (c := c + 1) (ext C) w (boolReal (CReal.ge (A 0 0) (B 0 0)))
      (i := 0) (j := 0) (by omega) (by omega)
    simpa using this
  rw [forRet_first (x := (-ENOSYS, mkD (r + 1) (c + 1)
    (upd (ext C) 0 0 (boolReal (CReal.ge (A 0 0) (B 0 0)))) w)) (by positivity)]
  · simp only [ok_bind, pure_eq]
    congr 2
    refine mkM_eq_mtxOf (r := r + 1) (c := c + 1) _ fun i j => ?_
    simp only [upd, ext_fin, Matrix.of_apply, boolReal, Fin.ext_iff, Fin.val_zero]
  · rw [mkD_rdk _ _ (by positivity), mkD_rdk _ _ (by positivity), ok_bind, ok_bind, hstep]
    simp only [Nat.zero_div, Nat.zero_mod]
    rw [ext_lt A (by omega : 0 < r + 1) (by omega : 0 < c + 1),
      ext_lt B (by omega : 0 < r + 1) (by omega : 0 < c + 1)]
    change (do
      let d ← wr (mkD (r + 1) (c + 1) (ext C) w) 0 (boolReal (CReal.ge (A 0 0) (B 0 0)))
      return (Ctl.ret (-ENOSYS, d) : Ctl (List R) (Int × List R))) = _
    rw [hw]
    rfl

/-- C17, negation on a concrete case: the mean of the 1x1 matrices (1) and (3) is not stored, and the call fails. -/
theorem mtx_binary_op_mean_wrong :
    mtxBinaryOp (mat !![1] []) (mat !![3] []) (mat !![9] []) .mean = ok (-ENOSYS, mat !![0] []) := by
  unfold mat
  rw [mtx_binary_op_fallthrough (r := 0) (c := 0) _ _ _ _ _ _ _ (by simp)]
  congr 3
  funext i j
  fin_cases i
  fin_cases j
  simp [XR.lit_eq]

/-- C17, C18. `zsl_mtx_add` and `zsl_mtx_sub` on real matrices are matrix addition and subtraction. -/
theorem mtx_add_sub_correct (A B : Matrix (Fin r) (Fin c) ℝ) (C : Matrix (Fin r) (Fin c) XR)
    (t u w : List XR) :
    mtxAdd (mat A t) (mat B u) (mtxOf C w) = ok (0, mat (A + B) w) ∧
    mtxSub (mat A t) (mat B u) (mtxOf C w) = ok (0, mat (A - B) w) := by
  constructor
  · exact mtxBinaryOp_eq _ _ _ _ _ _ _ _ fun i j => rfl
  · refine mtxBinaryOp_eq _ _ _ _ _ _ _ _ fun i j => ?_
    simp [binaryStep]

/-- C17, C03. The in-place variants: the second operand may be any matrix other than the first. -/
theorem mtx_add_sub_d_correct (A B : Matrix (Fin r) (Fin c) ℝ) (t u : List XR) :
    mtxAddD (mat A t) (mat B u) = ok (0, mat (A + B) t) ∧
    mtxSubD (mat A t) (mat B u) = ok (0, mat (A - B) t) := by
  constructor
  · exact mtxBinaryOpD_eq _ _ _ _ _ _ fun i j => rfl
  · refine mtxBinaryOpD_eq _ _ _ _ _ _ fun i j => ?_
    simp [binaryStep]

/-- C17. The in-place form rejects operands of different shapes and stores nothing. -/
theorem mtx_binary_op_d_shape (ma mb : Mtx R) (op : BinaryOp)
    (h : ma.rows ≠ mb.rows ∨ ma.cols ≠ mb.cols) : mtxBinaryOpD ma mb op = ok (-EINVAL, ma) := by
  unfold mtxBinaryOpD
  exact if_pos (by omega)

/-- C17. The same for the four named functions. -/
theorem mtx_add_sub_shape (ma mb mc : Mtx R) (h : ma.rows ≠ mb.rows ∨ ma.cols ≠ mb.cols) :
    mtxAdd ma mb mc = ok (-EINVAL, mc) ∧ mtxSub ma mb mc = ok (-EINVAL, mc) ∧
    mtxAddD ma mb = ok (-EINVAL, ma) ∧ mtxSubD ma mb = ok (-EINVAL, ma) := by
  exact ⟨mtx_binary_op_shape ma mb mc _ (by omega), mtx_binary_op_shape ma mb mc _ (by omega),
    mtx_binary_op_d_shape ma mb _ h, mtx_binary_op_d_shape ma mb _ h⟩

example : mtxAddD (mat !![1, 2; 3, 4] []) (mat !![1; 2] []) = ok (-EINVAL, mat !![1, 2; 3, 4] []) :=
  (mtx_add_sub_shape _ _ (mat !![1] []) (Or.inr (by decide))).2.2.1

/-- C17. Scaling. -/
theorem mtx_scalar_mult_correct (A : Matrix (Fin r) (Fin c) ℝ) (t : List XR) (s : ℝ) :
    mtxScalarMultD (mat A t) (XR.fin s) = ok (0, mat (s • A) t) := by
  unfold mtxScalarMultD
  rw [mat_rows, mat_cols]
  unfold mat
  rw [mtxOf_eq, mtxOf_eq, mkM_data, forN_flat (ext ((s • A).map XR.fin))]
  · rfl
  · intro k hk
    have hd := div_lt_rows hk
    have hm := Nat.mod_lt k (pos_of_lt_mul hk)
    rw [mkD_fmix_rd _ _ _ hk, ok_bind, ext_lt _ hd hm, ext_lt _ hd hm]
    simp [mul_comm]

/-- C17. A callback given to `zsl_mtx_unary_func` that stores `F i j (old value)` is applied once to every element. -/
theorem mtx_unary_func_correct (A : Matrix (Fin r) (Fin c) R) (t : List R) (fn : EntryFn R)
    (F : Fin r → Fin c → R → R)
    (hfn : ∀ (B : Matrix (Fin r) (Fin c) R) (i : Fin r) (j : Fin c),
      fn (mtxOf B t) i j = mtxSet (mtxOf B t) i j (F i j (B i j))) :
    mtxUnaryFunc (mtxOf A t) (some fn) = ok (0, mtxOf (Matrix.of fun i j => F i j (A i j)) t) := by
  unfold mtxUnaryFunc
  rw [mtxOf_rows, mtxOf_cols, mtxOf_eq, mtxOf_eq]
  refine forEntries_fill (fun f => mkM r c f t) (fun f g h => mkM_congr h) _ ?_
  intro i hi j hj
  have := hfn (Matrix.of fun a b => mix i j
    (ext (Matrix.of fun i j => F i j (A i j))) (ext A) a b) ⟨i, hi⟩ ⟨j, hj⟩
  rw [← mkM_eq] at this
  simp only [Matrix.of_apply, mix_self] at this ⊢
  rw [this, mkM_set _ _ _ hi hj, ext_lt _ hi hj, ext_lt _ hi hj]
  rfl

/-- C17. The same for `zsl_mtx_binary_func`. -/
theorem mtx_binary_func_correct (A B C : Matrix (Fin r) (Fin c) R) (t u w : List R)
    (fn : Mtx R → Mtx R → Mtx R → Nat → Nat → Out (Int × Mtx R)) (F : Fin r → Fin c → R → R → R)
    (hfn : ∀ (D : Matrix (Fin r) (Fin c) R) (i : Fin r) (j : Fin c),
      fn (mtxOf A t) (mtxOf B u) (mtxOf D w) i j = mtxSet (mtxOf D w) i j (F i j (A i j) (B i j))) :
    mtxBinaryFunc (mtxOf A t) (mtxOf B u) (mtxOf C w) (some fn) =
      ok (0, mtxOf (Matrix.of fun i j => F i j (A i j) (B i j)) w) := by
  unfold mtxBinaryFunc
  rw [if_neg (by simp), mtxOf_rows, mtxOf_cols, mtxOf_eq C, mtxOf_eq (Matrix.of _)]
  refine forEntries_fill (fun f => mkM r c f w) (fun f g h => mkM_congr h) _ ?_
  intro i hi j hj
  have := hfn (Matrix.of fun a b => mix i j
    (ext (Matrix.of fun i j => F i j (A i j) (B i j))) (ext C) a b) ⟨i, hi⟩ ⟨j, hj⟩
  rw [← mkM_eq] at this
  simp only at this ⊢
  rw [this, mkM_set _ _ _ hi hj, ext_lt _ hi hj]
  rfl

/-! ## C18: the product -/

theorem copyLocal_eq (A : Matrix (Fin r) (Fin c) R) (t : List R) :
    mtxCopy ⟨r, c, List.replicate (r * c) (lit 0)⟩ (mtxOf A t) = ok (0, mtxOf A []) := by
  have : (⟨r, c, List.replicate (r * c) (lit 0)⟩ : Mtx R) =
      mtxOf (Matrix.of fun (_ : Fin r) (_ : Fin c) => lit 0) [] := by
    unfold mtxOf
    simp
  rw [this, mtx_copy_correct]

theorem mtxMult_eq (A : Matrix (Fin p) (Fin n) ℝ) (B : Matrix (Fin n) (Fin q) ℝ) (t u : List XR)
    (d : List XR) (hd : p * q ≤ d.length) :
    mtxMult (mat A t) (mat B u) ⟨p, q, d⟩ = ok (0, mat (A * B) (d.drop (p * q))) := by
  obtain ⟨h, hh⟩ := mkD_of_length d hd
  generalize d.drop (p * q) = w at hh ⊢
  subst hh
  unfold mtxMult
  rw [if_neg (by simp), if_neg (by simp), mat_rows, mat_cols, mat_rows, mat_cols]
  unfold mat
  rw [copyLocal_eq, copyLocal_eq]
  simp only [ok_bind, mtxOf_rows, mtxOf_cols]
  rw [forN_fill2 (fun f => mkD p q f w) (fun f g h => mkD_congr h) (ext ((A * B).map XR.fin))]
  · rw [mtxOf_eq ((A * B).map XR.fin)]
    rfl
  · intro i hi j hj
    generalize hg : mix i j (ext ((A * B).map XR.fin)) h = g
    rw [Nat.add_comm, mkD_wr _ _ _ hi hj, ok_bind]
    have key : ∀ k, k ≤ n → forN k (fun k d => do
        let acc ← rd d (i * q + j)
        let x ← rd (mtxOf (A.map XR.fin) []).data (k + i * n)
        let y ← rd (mtxOf (B.map XR.fin) []).data (j + k * q)
        wr d (i * q + j) (acc + x * y)) (mkD p q (upd g i j (lit 0)) w) =
        ok (mkD p q (upd g i j (XR.fin (∑ x : Fin n, if x.val < k then A ⟨i, hi⟩ x * B x ⟨j, hj⟩ else 0))) w) := by
      intro k
      induction k with
      | zero => intro _; simp
      | succ k ih =>
        intro hk
        obtain ⟨kk, hkk⟩ : ∃ kk : Fin n, kk.val = k := ⟨⟨k, by omega⟩, rfl⟩
        rw [forN_succ, ih (by omega), ok_bind, mkD_rd _ _ hi hj, ok_bind, mtxOf_eq, mtxOf_eq,
          mkM_data, mkM_data, Nat.add_comm k, Nat.add_comm j, mkD_rd _ _ hi (by omega), ok_bind,
          mkD_rd _ _ (by omega) hj, ok_bind, mkD_wr _ _ _ hi hj]
        congr 1
        apply mkD_congr
        intro a _ b _
        unfold upd
        by_cases hab : a = i ∧ b = j
        · rw [if_pos hab, if_pos hab]
          simp only [and_self, if_true]
          subst hkk
          rw [ext_lt _ hi kk.2, ext_lt _ kk.2 hj]
          simp only [Matrix.map_apply, XR.fin_mul, XR.fin_add]
          congr 1
          have hs : (∑ x : Fin n, if x.val < kk.val + 1 then A ⟨i, hi⟩ x * B x ⟨j, hj⟩ else 0) =
              (∑ x : Fin n, if x.val < kk.val then A ⟨i, hi⟩ x * B x ⟨j, hj⟩ else 0) +
              ∑ x : Fin n, if x = kk then A ⟨i, hi⟩ x * B x ⟨j, hj⟩ else 0 := by
            rw [← Finset.sum_add_distrib]
            apply Finset.sum_congr rfl
            intro x _
            by_cases h2 : x = kk
            · subst h2
              simp
            · have : x.val ≠ kk.val := fun h => h2 (Fin.ext h)
              rw [if_neg h2, add_zero]
              split_ifs <;> first | rfl | (exfalso; omega)
          rw [hs, Finset.sum_ite_eq' Finset.univ, if_pos (Finset.mem_univ _)]
        · rw [if_neg hab, if_neg hab, if_neg hab]
    rw [key n le_rfl]
    congr 1
    rw [ext_lt _ hi hj]
    simp only [Fin.is_lt, if_true]
    rfl

/-- C18. `zsl_mtx_mult` stores the product. -/
theorem mtx_mult_correct (A : Matrix (Fin p) (Fin n) ℝ) (B : Matrix (Fin n) (Fin q) ℝ)
    (C : Matrix (Fin p) (Fin q) XR) (t u w : List XR) :
    mtxMult (mat A t) (mat B u) (mtxOf C w) = ok (0, mat (A * B) w) := by
  have := mtxMult_eq A B t u (mtxOf C w).data (by rw [mtxOf_eq]; simp)
  rw [mtxOf_eq] at this ⊢
  rw [mkM_data, mkD_drop] at this
  exact this

/-- C18. The output may be one of the operands (or both). -/
theorem mtx_mult_alias (A B : Matrix (Fin n) (Fin n) ℝ) (t u : List XR) :
    mtxMult (mat A t) (mat B u) (mat A t) = ok (0, mat (A * B) t) ∧
    mtxMult (mat A t) (mat B u) (mat B u) = ok (0, mat (A * B) u) ∧
    mtxMult (mat A t) (mat A t) (mat A t) = ok (0, mat (A * A) t) :=
  ⟨mtx_mult_correct _ _ _ _ _ _, mtx_mult_correct _ _ _ _ _ _, mtx_mult_correct _ _ _ _ _ _⟩

/-- C18. `zsl_mtx_mult_d`. -/
theorem mtx_mult_d_correct (A : Matrix (Fin p) (Fin n) ℝ) (B : Matrix (Fin n) (Fin n) ℝ) (t u : List XR) :
    mtxMultD (mat A t) (mat B u) = ok (0, mat (A * B) t) := by
  unfold mtxMultD
  rw [if_neg (by simp), if_neg (by simp)]
  have := mtx_mult_correct A B (A.map XR.fin) t u t
  change mtxMult (mat A t) (mat B u) (mat A t) = _ at this
  rw [this]
  rfl

/-- C18. Incompatible shapes are refused and the output is unchanged, for every scalar type. -/
theorem mtx_mult_shape (ma mb mc : Mtx R)
    (h : ma.cols ≠ mb.rows ∨ mc.rows ≠ ma.rows ∨ mc.cols ≠ mb.cols) :
    mtxMult ma mb mc = ok (-EINVAL, mc) := by
  unfold mtxMult
  by_cases h1 : ma.cols ≠ mb.rows
  · rw [if_pos h1]
  · rw [if_neg h1, if_pos (h.resolve_left h1)]

/-- C18. The same for `zsl_mtx_mult_d`, whose second operand must be square. -/
theorem mtx_mult_d_shape (ma mb : Mtx R) (h : ma.cols ≠ mb.rows ∨ mb.rows ≠ mb.cols) :
    mtxMultD ma mb = ok (-EINVAL, ma) := by
  unfold mtxMultD
  by_cases h1 : ma.cols ≠ mb.rows
  · rw [if_pos h1]
  · rw [if_neg h1, if_pos (h.resolve_left h1)]

/-- C18. Products computed by the code are associative. -/
theorem mtx_mult_assoc {k : ℕ} (A : Matrix (Fin p) (Fin n) ℝ) (B : Matrix (Fin n) (Fin q) ℝ)
    (C : Matrix (Fin q) (Fin k) ℝ) (t u w : List XR) (X : Matrix (Fin p) (Fin q) XR)
    (Y : Matrix (Fin n) (Fin k) XR) (Z : Matrix (Fin p) (Fin k) XR) (x y z : List XR) :
    (do
      let (_, ab) ← mtxMult (mat A t) (mat B u) (mtxOf X x)
      mtxMult ab (mat C w) (mtxOf Z z)) =
    (do
      let (_, bc) ← mtxMult (mat B u) (mat C w) (mtxOf Y y)
      mtxMult (mat A t) bc (mtxOf Z z)) := by
  rw [mtx_mult_correct, mtx_mult_correct]
  simp only [ok_bind]
  rw [mtx_mult_correct, mtx_mult_correct, Matrix.mul_assoc]

/-- C18. They distribute over sums computed by the code. -/
theorem mtx_mult_add (A : Matrix (Fin p) (Fin n) ℝ) (B C : Matrix (Fin n) (Fin q) ℝ)
    (t u w : List XR) (X : Matrix (Fin n) (Fin q) XR) (Y Y' Z : Matrix (Fin p) (Fin q) XR)
    (x y y' z : List XR) :
    (do
      let (_, s) ← mtxAdd (mat B u) (mat C w) (mtxOf X x)
      mtxMult (mat A t) s (mtxOf Z z)) =
    (do
      let (_, ab) ← mtxMult (mat A t) (mat B u) (mtxOf Y y)
      let (_, ac) ← mtxMult (mat A t) (mat C w) (mtxOf Y' y')
      mtxAdd ab ac (mtxOf Z z)) := by
  rw [(mtx_add_sub_correct _ _ _ _ _ _).1, mtx_mult_correct, mtx_mult_correct]
  simp only [ok_bind]
  rw [mtx_mult_correct, (mtx_add_sub_correct _ _ _ _ _ _).1, Matrix.mul_add]

/-- C18. The identity matrix made by `zsl_mtx_init` is neutral on both sides. -/
theorem mtx_mult_identity (A I₀ Z : Matrix (Fin n) (Fin n) ℝ) (t u w : List XR) :
    (do
      let (_, i) ← mtxInit (mat I₀ u) (some entryFnIdentity)
      mtxMult (mat A t) i (mat Z w)) = ok (0, mat A w) ∧
    (do
      let (_, i) ← mtxInit (mat I₀ u) (some entryFnIdentity)
      mtxMult i (mat A t) (mat Z w)) = ok (0, mat A w) := by
  rw [mtx_init_identity_real]
  simp only [ok_bind]
  unfold mat
  rw [← mat, ← mat, mtx_mult_correct, mtx_mult_correct, Matrix.mul_one, Matrix.one_mul]
  exact ⟨rfl, rfl⟩

/-- C19. The transpose of a real matrix. -/
theorem mtx_trans_real (junk : ℕ → XR) (A : Matrix (Fin p) (Fin n) ℝ) (B : Matrix (Fin n) (Fin p) XR)
    (t u : List XR) (hn : 0 < n) :
    mtxTrans junk (mat A t) (mtxOf B u) = ok (0, mat A.transpose u) := by
  unfold mat
  rw [mtx_trans_correct _ _ _ _ _ hn, Matrix.transpose_map]

/-- C19. The transpose of a product is the reversed product of the transposes. -/
theorem mtx_trans_mult (junk : ℕ → XR) (A : Matrix (Fin p) (Fin n) ℝ) (B : Matrix (Fin n) (Fin q) ℝ)
    (t u : List XR) (X : Matrix (Fin p) (Fin q) XR) (P : Matrix (Fin n) (Fin p) XR)
    (Q : Matrix (Fin q) (Fin n) XR) (Z : Matrix (Fin q) (Fin p) XR) (x y y' z : List XR)
    (hn : 0 < n) (hq : 0 < q) :
    (do
      let (_, ab) ← mtxMult (mat A t) (mat B u) (mtxOf X x)
      mtxTrans junk ab (mtxOf Z z)) =
    (do
      let (_, a) ← mtxTrans junk (mat A t) (mtxOf P y)
      let (_, b) ← mtxTrans junk (mat B u) (mtxOf Q y')
      mtxMult b a (mtxOf Z z)) := by
  rw [mtx_mult_correct, mtx_trans_real _ _ _ _ _ hn, mtx_trans_real _ _ _ _ _ hq]
  simp only [ok_bind]
  rw [mtx_trans_real _ _ _ _ _ hq, mtx_mult_correct, Matrix.transpose_mul]

/-! ## C20: row operations -/

/-- C20. `zsl_mtx_sum_rows_d` changes row `i` to the sum of rows `i` and `j`, also for `i = j`. -/
theorem mtx_sum_rows_correct (A : Matrix (Fin r) (Fin c) R) (t : List R) (i j : Fin r) :
    mtxSumRowsD (mtxOf A t) i j = ok (0, mtxOf (A.updateRow i fun k => A i k + A j k) t) := by
  unfold mtxSumRowsD
  rw [if_neg (by simp), mtxOf_cols, mtxOf_eq, mkM_data,
    forN_row (fun k => ext A i k + ext A j k) i.2]
  · simp only [ok_bind, pure_eq]
    congr 2
    refine mkM_eq_mtxOf (r := r) (c := c) _ fun a b => ?_
    simp only [ext_fin, Matrix.updateRow_apply, Fin.ext_iff]
  · intro k hk g hg
    rw [mkD_rd _ _ i.2 hk, mkD_rd _ _ j.2 hk, ok_bind, ok_bind, hg _ _ (by simp), hg _ _ (by simp)]

/-- C20. Row indices out of range are refused. -/
theorem mtx_sum_rows_range (m : Mtx R) (i j : ℕ) (h : m.rows ≤ i ∨ m.rows ≤ j) :
    mtxSumRowsD m i j = ok (-EINVAL, m) := by
  unfold mtxSumRowsD
  rw [if_pos (by simpa using h)]

/-- C20. `zsl_mtx_scalar_mult_row_d` scales row `i` and nothing else. -/
theorem mtx_scalar_mult_row_correct (A : Matrix (Fin r) (Fin c) R) (t : List R) (i : Fin r) (s : R) :
    mtxScalarMultRowD (mtxOf A t) i s = ok (0, mtxOf (A.updateRow i fun k => A i k * s) t) := by
  unfold mtxScalarMultRowD
  rw [if_neg (by simp), mtxOf_cols, mtxOf_eq, mkM_data, forN_row (fun k => ext A i k * s) i.2]
  · simp only [ok_bind, pure_eq]
    congr 2
    refine mkM_eq_mtxOf (r := r) (c := c) _ fun a b => ?_
    simp only [ext_fin, Matrix.updateRow_apply, Fin.ext_iff]
  · intro k hk g hg
    rw [mkD_rd _ _ i.2 hk, ok_bind, hg _ _ (by simp)]

/-- C20. Row indices out of range are refused. -/
theorem mtx_scalar_mult_row_range (m : Mtx R) (i : ℕ) (s : R) (h : m.rows ≤ i) :
    mtxScalarMultRowD m i s = ok (-EINVAL, m) := by
  unfold mtxScalarMultRowD
  rw [if_pos h]

/-- C20 `_partial`. `zsl_mtx_sum_rows_scaled_d` changes row `i` to `row i + s * row j`. Missing: the code checks `j` against the
number of columns, so `j < c` is needed here, and `j` outside the matrix is not always refused
(`mtx_sum_rows_scaled_overread`, `mtx_sum_rows_scaled_refused`). -/
theorem mtx_sum_rows_scaled_partial (A : Matrix (Fin r) (Fin c) R) (t : List R) (i j : Fin r) (s : R)
    (hj : j.val < c) :
    mtxSumRowsScaledD (mtxOf A t) i j s =
      ok (0, mtxOf (A.updateRow i fun k => A i k + A j k * s) t) := by
  unfold mtxSumRowsScaledD
  rw [if_neg (by simp; omega), mtxOf_cols, mtxOf_eq, mkM_data,
    forN_row (fun k => ext A i k + ext A j k * s) i.2]
  · simp only [ok_bind, pure_eq]
    congr 2
    refine mkM_eq_mtxOf (r := r) (c := c) _ fun a b => ?_
    simp only [ext_fin, Matrix.updateRow_apply, Fin.ext_iff]
  · intro k hk g hg
    rw [mkD_rd _ _ i.2 hk, mkD_rd _ _ j.2 hk, ok_bind, ok_bind, hg _ _ (by simp), hg _ _ (by simp)]

/-- C20. For square matrices the check is the right one. -/
theorem mtx_sum_rows_scaled_square (A : Matrix (Fin n) (Fin n) R) (t : List R) (s : R) :
    (∀ i j : Fin n, mtxSumRowsScaledD (mtxOf A t) i j s =
      ok (0, mtxOf (A.updateRow i fun k => A i k + A j k * s) t)) ∧
    ∀ i j : ℕ, n ≤ i ∨ n ≤ j → mtxSumRowsScaledD (mtxOf A t) i j s = ok (-EINVAL, mtxOf A t) := by
  refine ⟨fun i j => mtx_sum_rows_scaled_partial A t i j s j.2, fun i j h => ?_⟩
  unfold mtxSumRowsScaledD
  rw [if_pos (by simpa using h)]

/-- C20, negation: with more columns than rows, a row index one past the end passes the check and the code reads behind the
buffer. Any `A` with `r` rows, `r + 1` columns or more, and no cells behind the matrix. -/
theorem mtx_sum_rows_scaled_overread (A : Matrix (Fin r) (Fin c) R) (i : Fin r) (s : R) (h : r < c) :
    mtxSumRowsScaledD (mtxOf A []) i r s = ub := by
  have hc : c ≠ 0 := by omega
  obtain ⟨c, rfl⟩ := Nat.exists_eq_succ_of_ne_zero hc
  unfold mtxSumRowsScaledD
  rw [if_neg (by simp; omega), mtxOf_cols, mtxOf_eq, mkM_data]
  have hub : ∀ k, forN (k + 1) (fun x d => do
      let a ← rd d (i.val * (c + 1) + x)
      let b ← rd d (r * (c + 1) + x)
      wr d (i.val * (c + 1) + x) (a + b * s)) (mkD r (c + 1) (ext A) []) = ub := by
    intro k
    induction k with
    | zero =>
      rw [forN_succ, forN_zero, ok_bind, mkD_rd _ _ i.2 (by omega), ok_bind, rd_ge (by simp)]
      rfl
    | succ k ih => rw [forN_succ, ih, ub_bind]
  have := hub c
  exact this ▸ rfl

/-- C20, negation: with fewer columns than rows, a valid row index is refused. -/
theorem mtx_sum_rows_scaled_refused (A : Matrix (Fin r) (Fin c) R) (t : List R) (i j : Fin r) (s : R)
    (h : c ≤ j.val) : mtxSumRowsScaledD (mtxOf A t) i j s = ok (-EINVAL, mtxOf A t) := by
  unfold mtxSumRowsScaledD
  rw [if_pos (by simp; omega)]

/-- Non-vacuity of the two negations: shapes 1x2 and 2x1. -/
example : (1 < 2) ∧ ∃ j : Fin 2, 1 ≤ j.val := ⟨by decide, 1, by decide⟩

/-- C20. On real matrices, in terms of rows as vectors. -/
theorem mtx_row_ops_real (A : Matrix (Fin n) (Fin n) ℝ) (t : List XR) (i j : Fin n) (s : ℝ) :
    mtxSumRowsD (mat A t) i j = ok (0, mat (A.updateRow i (A i + A j)) t) ∧
    mtxSumRowsScaledD (mat A t) i j (XR.fin s) = ok (0, mat (A.updateRow i (A i + s • A j)) t) ∧
    mtxScalarMultRowD (mat A t) i (XR.fin s) = ok (0, mat (A.updateRow i (s • A i)) t) := by
  unfold mat
  rw [mtx_sum_rows_correct, (mtx_sum_rows_scaled_square _ _ _).1, mtx_scalar_mult_row_correct]
  refine ⟨?_, ?_, ?_⟩ <;> congr 3 <;> funext a b <;>
    simp only [Matrix.map_apply, Matrix.updateRow_apply] <;> split_ifs <;>
    simp [mul_comm]

/-- C20. Adding a multiple of another row does not change the determinant of a square matrix. -/
theorem mtx_row_ops_det (A : Matrix (Fin n) (Fin n) ℝ) (t : List XR) (i j : Fin n) (s : ℝ) (hij : i ≠ j) :
    ∃ B : Matrix (Fin n) (Fin n) ℝ, mtxSumRowsScaledD (mat A t) i j (XR.fin s) = ok (0, mat B t) ∧
      B.det = A.det := by
  refine ⟨_, (mtx_row_ops_real A t i j s).2.1, ?_⟩
  rw [Matrix.det_updateRow_add_smul_self A hij]

end Verif
