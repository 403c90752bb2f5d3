import Verif.Lemmas.NoChk4
import Verif.Spec.Accepted

/-!
# Builds without bounds checks: vectors, access to matrices, arithmetic

`f` is the function in a build with `CONFIG_ZSL_BOUNDS_CHECKS`, `NoChk.f` the same function in a build without. The theorems hold for every
type of scalars, so with rounding as well.
-/

namespace Verif

open NoChkL Out

variable {R : Type} [CReal R]

theorem sameIf_of_eq {α : Type} {x y : Out (Int × α)} (h : (∃ out, x = ok (0, out)) → y = x) : SameIfAccepted x y :=
  fun out ho => (h ⟨out, ho⟩).trans ho

theorem not_zero_einval {α : Type} {a b : α} (h : (ok (-EINVAL, a) : Out (Int × α)) = ok (0, b)) : False := by
  have : (-EINVAL : Int) = 0 := by
    injection h with h
    exact congrArg Prod.fst h
  unfold EINVAL at this
  omega

/-- A guard that returns `-EINVAL` was passed by an accepted call. -/
theorem passed {α : Type} {c : Prop} [Decidable c] {a out : α} {x : Out (Int × α)}
    (h : (if c then ok (-EINVAL, a) else x) = ok (0, out)) : ¬ c := by
  intro hc
  rw [if_pos hc] at h
  exact not_zero_einval h

/-! ### Vectors -/

/-- C147. `zsl_vec_add`. -/
theorem nochk_vec_add (v w x : Vec R) : SameIfAccepted (vecAdd v w x) (NoChk.vecAdd v w x) := by
  refine sameIf_of_eq fun ⟨out, h⟩ => ?_
  have := passed h
  exact vadd_eq (by omega) (by omega)

/-- C147. `zsl_vec_sub`. -/
theorem nochk_vec_sub (v w x : Vec R) : SameIfAccepted (vecSub v w x) (NoChk.vecSub v w x) := by
  refine sameIf_of_eq fun ⟨out, h⟩ => ?_
  have := passed h
  exact vsub_eq (by omega) (by omega)

/-- C147. `zsl_vec_dot`. -/
theorem nochk_vec_dot (v w : Vec R) (d : R) : SameIfAccepted (vecDot v w d) (NoChk.vecDot v w d) := by
  refine sameIf_of_eq fun ⟨out, h⟩ => ?_
  have := passed h
  exact vdot_eq (by omega)

/-- C147. `zsl_vec_norm` and `zsl_vec_sum_of_sqrs` do the same in both builds, whatever the vector. -/
theorem nochk_vec_norm (v : Vec R) : NoChk.vecNorm v = vecNorm v ∧ NoChk.vecSumOfSqrs v = vecSumOfSqrs v := by
  refine ⟨vnorm_eq v, ?_⟩
  unfold NoChk.vecSumOfSqrs vecSumOfSqrs
  rw [vdot_eq rfl]

/-- C147. `zsl_vec_to_unit` does the same in both builds, whatever the vector. -/
theorem nochk_vec_to_unit (v : Vec R) : NoChk.vecToUnit v = vecToUnit v := toUnit_eq v

/-- C147. `zsl_vec_dist` of two vectors of the same size. -/
theorem nochk_vec_dist (v w : Vec R) (h : v.sz = w.sz) : NoChk.vecDist v w = vecDist v w := by
  unfold NoChk.vecDist vecDist
  refine bind_congr_ok (vsub_eq h rfl) fun x _ => ?_
  obtain ⟨rc, x⟩ := x
  dsimp only
  rw [vnorm_eq]

/-- C147. `zsl_vec_project`. -/
theorem nochk_vec_project (u v w : Vec R) : SameIfAccepted (vecProject u v w) (NoChk.vecProject u v w) := by
  refine sameIf_of_eq fun ⟨out, h⟩ => ?_
  have := passed h
  exact vproject_eq (by omega) (by omega)

/-- C147. `zsl_vec_cross`. -/
theorem nochk_vec_cross (v w c : Vec R) : SameIfAccepted (vecCross v w c) (NoChk.vecCross v w c) := by
  refine sameIf_of_eq fun ⟨out, h⟩ => ?_
  have := passed h
  unfold NoChk.vecCross vecCross
  rw [if_neg this]

theorem sum_ok {v : List (Vec R)} {n : Nat} {w : Vec R} {out : Int × Vec R} (h : vecSum v n w = ok out) (h0 : out.1 = 0) :
    NoChk.vecSum v n w = ok out := by
  unfold vecSum at h
  unfold NoChk.vecSum
  by_cases hn : n = 0
  · rw [if_pos hn] at h ⊢
    exact h
  rw [if_neg hn] at h ⊢
  obtain ⟨v0, hv0, h⟩ := bind_ok h
  dsimp only at h
  obtain ⟨chk, hchk, h⟩ := bind_ok h
  rw [hv0, ok_bind]
  dsimp only
  cases chk with
  | next _ => exact h
  | ret rc =>
    have := (forRet_congr_inv (n := n) (f := fun _ _ => _) (s := ()) (fun _ _ => True) (fun rc => rc = -EINVAL) trivial
      (fun _ _ _ _ => rfl) (by
        rintro i hi ⟨⟩ - c hc
        obtain ⟨vi, -, hc⟩ := bind_ok hc
        by_cases hs : v0.sz ≠ vi.sz
        · rw [if_pos hs] at hc
          cases hc
          rfl
        · rw [if_neg hs] at hc
          cases hc
          trivial)).2 _ hchk
    have this : rc = -EINVAL := this
    cases h
    rw [this] at h0
    have h0 : (-EINVAL : Int) = 0 := h0
    unfold EINVAL at h0
    omega

/-- C147. `zsl_vec_sum`: the check that all vectors have the same size. -/
theorem nochk_vec_sum (v : List (Vec R)) (n : Nat) (w : Vec R) : SameIfAccepted (vecSum v n w) (NoChk.vecSum v n w) :=
  fun _ h => sum_ok h rfl

/-- C147. `zsl_vec_mean`. -/
theorem nochk_vec_mean (v : List (Vec R)) (n : Nat) (m : Vec R) : SameIfAccepted (vecMean v n m) (NoChk.vecMean v n m) := by
  intro out h
  unfold vecMean at h
  unfold NoChk.vecMean
  obtain ⟨v0, -, h⟩ := bind_ok h
  have hp := passed h
  rw [if_neg hp] at h
  obtain ⟨⟨rc, s⟩, hs, h⟩ := bind_ok h
  dsimp only at h
  by_cases hrc : rc ≠ 0
  · rw [if_pos hrc] at h
    cases h
    exact absurd rfl hrc
  · rw [sum_ok hs (not_not.mp hrc), ok_bind]
    exact h

/-- C147. `zsl_vec_get_subset` when the part asked for lies within the vector. The full claim, for every accepted call, is false: see
`nochk_vec_get_subset_fails`. -/
theorem nochk_vec_get_subset_partial (v vsub : Vec R) (offset len : Nat) (h : offset + len ≤ v.sz) :
    SameIfAccepted (vecGetSubset v offset len vsub) (NoChk.vecGetSubset v offset len vsub) := by
  refine sameIf_of_eq fun ⟨out, ho⟩ => ?_
  have h1 := passed ho
  unfold vecGetSubset at ho
  rw [if_neg h1] at ho
  have hs : szAdd offset len ≤ offset + len := Nat.mod_le _ _
  have hl : (if szAdd offset len ≥ v.sz then v.sz - offset else len) = len := by
    by_cases h' : szAdd offset len ≥ v.sz
    · rw [if_pos h']
      omega
    · rw [if_neg h']
  simp only [hl] at ho
  have h2 := passed ho
  exact subset_eq (by omega) h (by omega)

/-- C147. `zsl_vec_get_subset` cuts a part that reaches past the end of the vector to what is there, but that cut is one of the
bounds checks: in a build without them the accepted call reads past the end of the vector. -/
theorem nochk_vec_get_subset_fails (x y : R) :
    vecGetSubset ⟨1, [x]⟩ 0 2 ⟨2, [y, y]⟩ = ok (0, ⟨1, [x, y]⟩) ∧ NoChk.vecGetSubset ⟨1, [x]⟩ 0 2 ⟨2, [y, y]⟩ = ub := by
  constructor
  · simp [vecGetSubset, szAdd, SIZE_MOD, memcpyAt, forN, rd, wr]
  · rfl

/-- C147. What the checks reject is undefined behaviour without them: `zsl_vec_add` with a second vector that is too short. -/
theorem nochk_vec_add_rejected (x y z : R) :
    vecAdd ⟨2, [x, x]⟩ ⟨1, [y]⟩ ⟨2, [z, z]⟩ = ok (-EINVAL, ⟨2, [z, z]⟩) ∧ NoChk.vecAdd ⟨2, [x, x]⟩ ⟨1, [y]⟩ ⟨2, [z, z]⟩ = ub := by
  constructor <;> rfl

example (x y : R) : vecAdd ⟨1, [x]⟩ ⟨1, [y]⟩ ⟨1, [x]⟩ = ok (0, ⟨1, [x + y]⟩) := rfl
example (x y : R) : vecGetSubset ⟨3, [x, y, x]⟩ 1 2 ⟨2, [x, x]⟩ = ok (0, ⟨2, [y, x]⟩) := by
  simp [vecGetSubset, szAdd, SIZE_MOD, memcpyAt, forN, rd, wr]
example (x y z : R) : vecSum [⟨1, [x]⟩, ⟨1, [y]⟩] 2 ⟨1, [z]⟩ = ok (0, ⟨1, [z + x + y]⟩) := rfl

/-! ### Access to matrices -/

/-- C147. `zsl_mtx_get`. -/
theorem nochk_mtx_get (m : Mtx R) (i j : Nat) (x : R) : SameIfAccepted (mtxGet m i j x) (NoChk.mtxGet m i j x) := by
  refine sameIf_of_eq fun ⟨out, h⟩ => ?_
  have := passed h
  exact get_eq (by omega) (by omega)

/-- C147. `zsl_mtx_set`. -/
theorem nochk_mtx_set (m : Mtx R) (i j : Nat) (x : R) : SameIfAccepted (mtxSet m i j x) (NoChk.mtxSet m i j x) := by
  refine sameIf_of_eq fun ⟨out, h⟩ => ?_
  have := passed h
  exact set_eq (by omega) (by omega)

/-- C147. `zsl_mtx_copy`. -/
theorem nochk_mtx_copy (a b : Mtx R) : SameIfAccepted (mtxCopy a b) (NoChk.mtxCopy a b) := by
  refine sameIf_of_eq fun ⟨out, h⟩ => ?_
  have := passed h
  exact copy_eq (by omega) (by omega)

/-- C147. `zsl_mtx_init` with each of the callbacks of the library does the same in both builds, whatever the matrix. -/
theorem nochk_mtx_init (m : Mtx R) : NoChk.mtxInit m none = mtxInit m none ∧
    NoChk.mtxInit m (some NoChk.entryFnEmpty) = mtxInit m (some entryFnEmpty) ∧
    NoChk.mtxInit m (some NoChk.entryFnIdentity) = mtxInit m (some entryFnIdentity) :=
  ⟨init_none.1, init_empty.1, init_identity.1⟩

/-- A loop that returns in its first pass. -/
theorem forRet_first {σ ρ : Type} {n : Nat} {f : Nat → σ → Out (Ctl σ ρ)} {s : σ} {r : ρ} (hn : 0 < n) (h : f 0 s = ok (.ret r)) :
    forRet n f s = ok (.ret r) := by
  induction n with
  | zero => omega
  | succ n ih =>
    unfold forRet
    rcases Nat.eq_zero_or_pos n with h0 | h0
    · subst h0
      rw [forRet_zero, ok_bind]
      exact h
    · rw [ih h0]
      rfl

theorem get_out {m : Mtx R} {i j : Nat} {x : R} (h : ¬ (i < m.rows ∧ j < m.cols)) : mtxGet m i j x = ok (-EINVAL, x) := by
  unfold mtxGet
  rw [if_pos (by omega)]

theorem set_out {m : Mtx R} {i j : Nat} {x : R} (h : ¬ (i < m.rows ∧ j < m.cols)) : mtxSet m i j x = ok (-EINVAL, m) := by
  unfold mtxSet
  rw [if_pos (by omega)]

theorem einval_ne : (-EINVAL : Int) ≠ 0 := by decide

/-- C147. `zsl_mtx_get_row`. -/
theorem nochk_mtx_get_row (m : Mtx R) (i : Nat) (v : List R) : SameIfAccepted (mtxGetRow m i v) (NoChk.mtxGetRow m i v) := by
  refine sameIf_of_eq fun ⟨out, h⟩ => ?_
  rcases Nat.eq_zero_or_pos m.cols with hc | hc
  · unfold mtxGetRow NoChk.mtxGetRow
    rw [hc]
    rfl
  · refine getRow_eq ?_
    by_contra hi
    unfold mtxGetRow at h
    rw [forRet_first (r := (-EINVAL, v)) hc (by rw [get_out (by omega)]; rfl)] at h
    exact not_zero_einval h

/-- C147. `zsl_mtx_get_col`. -/
theorem nochk_mtx_get_col (m : Mtx R) (j : Nat) (v : List R) : SameIfAccepted (mtxGetCol m j v) (NoChk.mtxGetCol m j v) := by
  refine sameIf_of_eq fun ⟨out, h⟩ => ?_
  rcases Nat.eq_zero_or_pos m.rows with hc | hc
  · unfold mtxGetCol NoChk.mtxGetCol
    rw [hc]
    rfl
  · refine getCol_eq ?_
    by_contra hi
    unfold mtxGetCol at h
    rw [forRet_first (r := (-EINVAL, v)) hc (by rw [get_out (by omega)]; rfl)] at h
    exact not_zero_einval h

/-- C147. `zsl_mtx_set_row`. -/
theorem nochk_mtx_set_row (m : Mtx R) (i : Nat) (v : List R) : SameIfAccepted (mtxSetRow m i v) (NoChk.mtxSetRow m i v) := by
  refine sameIf_of_eq fun ⟨out, h⟩ => ?_
  rcases Nat.eq_zero_or_pos m.cols with hc | hc
  · unfold mtxSetRow NoChk.mtxSetRow
    rw [hc]
    rfl
  · refine (setRow_eq ?_).1
    by_contra hi
    unfold mtxSetRow at h
    cases hx : rd v 0 with
    | ub =>
      obtain ⟨c, hl, -⟩ := bind_ok h
      have : ∀ n, 0 < n → forRet n (fun j (m : Mtx R) => (do
          let x ← rd v j
          let (rc, m) ← mtxSet m i j x
          if rc ≠ 0 then return Ctl.ret (rc, m) else return Ctl.next m : Out (Ctl (Mtx R) (Int × Mtx R)))) m = ub := by
        intro n hn
        induction n with
        | zero => omega
        | succ n ih =>
          unfold forRet
          rcases Nat.eq_zero_or_pos n with h0 | h0
          · subst h0
            rw [forRet_zero, ok_bind]
            show (rd v 0 >>= _) = ub
            rw [hx]
            rfl
          · rw [ih h0]
            rfl
      rw [this _ hc] at hl
      cases hl
    | ok x =>
      rw [forRet_first (r := (-EINVAL, m)) hc (by rw [hx, ok_bind, set_out (by omega)]; rfl)] at h
      exact not_zero_einval h

/-- C147. `zsl_mtx_set_col`. -/
theorem nochk_mtx_set_col (m : Mtx R) (j : Nat) (v : List R) : SameIfAccepted (mtxSetCol m j v) (NoChk.mtxSetCol m j v) := by
  refine sameIf_of_eq fun ⟨out, h⟩ => ?_
  rcases Nat.eq_zero_or_pos m.rows with hc | hc
  · unfold mtxSetCol NoChk.mtxSetCol
    rw [hc]
    rfl
  · refine setCol_eq ?_
    by_contra hi
    unfold mtxSetCol at h
    cases hx : rd v 0 with
    | ub =>
      obtain ⟨c, hl, -⟩ := bind_ok h
      have : ∀ n, 0 < n → forRet n (fun i (m : Mtx R) => (do
          let x ← rd v i
          let (rc, m) ← mtxSet m i j x
          if rc ≠ 0 then return Ctl.ret (rc, m) else return Ctl.next m : Out (Ctl (Mtx R) (Int × Mtx R)))) m = ub := by
        intro n hn
        induction n with
        | zero => omega
        | succ n ih =>
          unfold forRet
          rcases Nat.eq_zero_or_pos n with h0 | h0
          · subst h0
            rw [forRet_zero, ok_bind]
            show (rd v 0 >>= _) = ub
            rw [hx]
            rfl
          · rw [ih h0]
            rfl
      rw [this _ hc] at hl
      cases hl
    | ok x =>
      rw [forRet_first (r := (-EINVAL, m)) hc (by rw [hx, ok_bind, set_out (by omega)]; rfl)] at h
      exact not_zero_einval h

/-- C147. A rejected `zsl_mtx_get` and `zsl_mtx_set` are undefined behaviour without the checks, or touch another entry: column 2 of a matrix
with two columns is column 0 of the next row. -/
theorem nochk_mtx_get_rejected (a b c d x : R) :
    mtxGet ⟨2, 2, [a, b, c, d]⟩ 0 2 x = ok (-EINVAL, x) ∧ NoChk.mtxGet ⟨2, 2, [a, b, c, d]⟩ 0 2 x = ok (0, c) ∧
    NoChk.mtxGet ⟨2, 2, [a, b, c, d]⟩ 2 0 x = ub ∧
    mtxSet ⟨2, 2, [a, b, c, d]⟩ 0 2 x = ok (-EINVAL, ⟨2, 2, [a, b, c, d]⟩) ∧
    NoChk.mtxSet ⟨2, 2, [a, b, c, d]⟩ 0 2 x = ok (0, ⟨2, 2, [a, b, x, d]⟩) ∧ NoChk.mtxSet ⟨2, 2, [a, b, c, d]⟩ 2 0 x = ub := by
  refine ⟨?_, ?_, ?_, ?_, ?_, ?_⟩ <;> rfl

/-! ### Arithmetic on matrices -/

/-- C147. `zsl_mtx_binary_op`, so `zsl_mtx_add` and `zsl_mtx_sub`, in every operation. -/
theorem nochk_mtx_binary_op (a b c : Mtx R) (op : BinaryOp) : SameIfAccepted (mtxBinaryOp a b c op) (NoChk.mtxBinaryOp a b c op) := by
  refine sameIf_of_eq fun ⟨out, h⟩ => ?_
  have := passed h
  exact binaryOp_eq (by omega) (by omega) (by omega) (by omega)

/-- C147. `zsl_mtx_binary_op` with the first operand as output, so `zsl_mtx_add_d` and `zsl_mtx_sub_d`. -/
theorem nochk_mtx_binary_op_d (a b : Mtx R) (op : BinaryOp) : SameIfAccepted (mtxBinaryOpD a b op) (NoChk.mtxBinaryOpD a b op) := by
  refine sameIf_of_eq fun ⟨out, h⟩ => ?_
  have := passed h
  exact binaryOpD_eq (by omega) (by omega)

/-- C147. `zsl_mtx_binary_func`, with any callback. -/
theorem nochk_mtx_binary_func (a b c : Mtx R) (fn : Option (Mtx R → Mtx R → Mtx R → Nat → Nat → Out (Int × Mtx R))) :
    SameIfAccepted (mtxBinaryFunc a b c fn) (NoChk.mtxBinaryFunc a b c fn) := by
  refine sameIf_of_eq fun ⟨out, h⟩ => ?_
  have := passed h
  unfold NoChk.mtxBinaryFunc mtxBinaryFunc
  rw [if_neg this]
  rfl

/-- C147. `zsl_mtx_sum_rows_d`. -/
theorem nochk_mtx_sum_rows (m : Mtx R) (i j : Nat) : SameIfAccepted (mtxSumRowsD m i j) (NoChk.mtxSumRowsD m i j) := by
  refine sameIf_of_eq fun ⟨out, h⟩ => ?_
  have := passed h
  exact sumRows_eq (by omega) (by omega)

/-- C147. `zsl_mtx_sum_rows_scaled_d`. -/
theorem nochk_mtx_sum_rows_scaled (m : Mtx R) (i j : Nat) (s : R) :
    SameIfAccepted (mtxSumRowsScaledD m i j s) (NoChk.mtxSumRowsScaledD m i j s) := by
  refine sameIf_of_eq fun ⟨out, h⟩ => ?_
  have := passed h
  exact sumRowsScaled_eq (by omega) (by omega)

/-- C147. `zsl_mtx_scalar_mult_row_d`. -/
theorem nochk_mtx_scalar_mult_row (m : Mtx R) (i : Nat) (s : R) :
    SameIfAccepted (mtxScalarMultRowD m i s) (NoChk.mtxScalarMultRowD m i s) := by
  refine sameIf_of_eq fun ⟨out, h⟩ => ?_
  have := passed h
  exact scalarMultRow_eq (by omega)

/-- C147. `zsl_mtx_mult`, with any output. -/
theorem nochk_mtx_mult (a b c : Mtx R) : SameIfAccepted (mtxMult a b c) (NoChk.mtxMult a b c) := by
  refine sameIf_of_eq fun ⟨out, h⟩ => ?_
  have h1 := passed h
  unfold mtxMult at h
  rw [if_neg h1] at h
  have h2 := passed h
  exact mult_eq (by omega) (by omega) (by omega)

/-- C147. `zsl_mtx_mult_d`. -/
theorem nochk_mtx_mult_d (a b : Mtx R) : SameIfAccepted (mtxMultD a b) (NoChk.mtxMultD a b) := by
  refine sameIf_of_eq fun ⟨out, h⟩ => ?_
  have h1 := passed h
  unfold mtxMultD at h
  rw [if_neg h1] at h
  have h2 := passed h
  exact multD_eq (by omega) (by omega)

/-- C147. `zsl_mtx_trans`. -/
theorem nochk_mtx_trans (junk : Nat → R) (a b : Mtx R) : SameIfAccepted (mtxTrans junk a b) (NoChk.mtxTrans junk a b) := by
  refine sameIf_of_eq fun ⟨out, h⟩ => ?_
  have := passed h
  exact trans_eq (by omega) (by omega)

/-- C147. `zsl_mtx_is_sym` of a square matrix. -/
theorem nochk_mtx_is_sym (x0 : R) (m : Mtx R) (h : m.cols = m.rows) : NoChk.mtxIsSym x0 m = mtxIsSym x0 m := isSym_eq h

example (a b c d : R) : mtxMult ⟨1, 1, [a]⟩ ⟨1, 2, [b, c]⟩ ⟨1, 2, [d, d]⟩ = ok (0, ⟨1, 2, [lit 0 + a * b, lit 0 + a * c]⟩) := rfl
example (a b : R) : mtxSetCol ⟨2, 1, [a, a]⟩ 0 [b, a] = ok (0, ⟨2, 1, [b, a]⟩) := rfl
example (a b : R) (junk : Nat → R) : mtxTrans junk ⟨1, 2, [a, b]⟩ ⟨2, 1, [a, a]⟩ = ok (0, ⟨2, 1, [a, b]⟩) := rfl

end Verif
