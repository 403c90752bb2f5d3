import Verif.Props.Safe4d
import Verif.Props.Vectors1

/-!
# Exact conditions for staying within the buffers (C115, C116, C117)
-/

set_option linter.unusedSectionVars false

namespace Verif

open Out

variable {R : Type} [CReal R]

/-- A call that is defined. -/
theorem Out.sat.ne_ub {α : Type} {x : Out α} {P : α → Prop} (h : x.sat P) : x ≠ ub := by
  obtain ⟨y, hy, -⟩ := h
  rw [hy]
  exact fun hh => by cases hh

/-- C115. `zsl_vec_from_arr` stays within its buffers exactly when the array has as many elements as the vector. -/
theorem vec_from_arr_safe_iff (v : Vec R) (a : List R) (h : v.WF) : vecFromArr v a ≠ ub ↔ v.sz ≤ a.length := by
  refine ⟨fun hne => ?_, fun ha => (vec_from_arr_safe v a h ha).ne_ub⟩
  by_contra hlt
  apply hne
  unfold vecFromArr
  rw [memcpyAt_src_short (by omega)]
  rfl

/-- C116. `zsl_mtx_from_arr` stays within its buffers exactly when the array has as many elements as the matrix. -/
theorem mtx_from_arr_safe_iff (m : Mtx R) (a : List R) (h : m.WF) : mtxFromArr m a ≠ ub ↔ m.rows * m.cols ≤ a.length := by
  refine ⟨fun hne => ?_, fun ha => (mtx_from_arr_safe m a h ha).ne_ub⟩
  by_contra hlt
  apply hne
  unfold mtxFromArr
  rw [memcpyAt_src_short (by omega)]
  rfl

/-- C115. `zsl_vec_copy` stays within its buffers exactly when the buffer of the destination has room for the source; the size of the destination does not
matter. -/
theorem vec_copy_safe_iff (w v : Vec R) (h : v.WF) : vecCopy w v ≠ ub ↔ v.sz ≤ w.data.length := by
  refine ⟨fun hne => ?_, fun hw => (vec_copy_safe w v h hw).ne_ub⟩
  by_contra hlt
  exact hne (vec_copy_overrun w v (by omega))

/-- C117. `zsl_mtx_gram_schmidt` and `zsl_mtx_cols_norm` of matrices with at least one column stay within their buffers exactly when the input has a row
and the output has not more rows than the input. -/
theorem mtx_gram_schmidt_safe_iff (junk : ℕ → R) (m mo : Mtx R) (h : m.WF) (ho : mo.WF) (hc : 0 < m.cols) (hco : 0 < mo.cols) :
    (mtxGramSchmidt junk m mo ≠ ub ↔ 0 < m.rows ∧ mo.rows ≤ m.rows) ∧ (mtxColsNorm junk m mo ≠ ub ↔ 0 < m.rows ∧ mo.rows ≤ m.rows) := by
  constructor
  · refine ⟨fun hne => ⟨?_, ?_⟩, fun hr => (mtx_gram_schmidt_safe junk m mo h ho hr.1 hr.2).ne_ub⟩
    · by_contra h0
      exact hne (if_pos (by omega))
    · by_contra hlt
      exact hne (mtx_gram_schmidt_overread junk m mo h ho hc hco (by omega))
  · refine ⟨fun hne => ⟨?_, ?_⟩, fun hr => (mtx_cols_norm_safe junk m mo h ho hr.1 hr.2).ne_ub⟩
    · by_contra h0
      exact hne (if_pos (by omega))
    · by_contra hlt
      exact hne (mtx_cols_norm_overread junk m mo h ho hc hco (by omega))

/-- C117. `zsl_mtx_householder` is defined exactly when the matrix has a row, and two rows in the Hessenberg form: otherwise it declares arrays of length
zero. The shape of the output does not matter. -/
theorem mtx_householder_safe_iff (junk : ℕ → R) (m h : Mtx R) (hess : Bool) (hm : m.WF) (hh : h.WF) (hsz : m.rows < SIZE_MOD) :
    mtxHouseholder junk m h hess ≠ ub ↔ 0 < m.rows ∧ (hess = true → 2 ≤ m.rows) := by
  refine ⟨fun hne => ?_, fun hr => (mtx_householder_safe junk m h hess hm hh hr.1 hr.2 hsz).ne_ub⟩
  by_contra hbad
  apply hne
  unfold mtxHouseholder
  refine if_pos ?_
  by_cases h0 : m.rows = 0
  · exact Or.inr h0
  · left
    rw [not_and] at hbad
    obtain ⟨h1, h2⟩ := Classical.not_imp.1 (hbad (by omega))
    rw [if_pos h1, szSub_le (by omega)]
    omega

/-- The cases are met: a 1x1 matrix has a Householder matrix but no Hessenberg form. -/
example (junk : ℕ → R) (a x : R) : mtxHouseholder junk ⟨1, 1, [a]⟩ ⟨1, 1, [x]⟩ false ≠ ub ∧ mtxHouseholder junk ⟨1, 1, [a]⟩ ⟨1, 1, [x]⟩ true = ub := by
  have h1 : (⟨1, 1, [a]⟩ : Mtx R).WF := by simp [Mtx.WF]
  have h2 : (⟨1, 1, [x]⟩ : Mtx R).WF := by simp [Mtx.WF]
  refine ⟨(mtx_householder_safe_iff junk _ _ false h1 h2 (by norm_num [SIZE_MOD])).2 ⟨by norm_num, by simp⟩, ?_⟩
  by_contra hne
  have := ((mtx_householder_safe_iff junk _ _ true h1 h2 (by norm_num [SIZE_MOD])).1 hne).2 rfl
  norm_num at this

/-- A vector of two elements and an array of one. -/
example (a b c : R) : vecFromArr ⟨2, [a, b]⟩ [c] = ub := by
  by_contra hne
  have := (vec_from_arr_safe_iff (⟨2, [a, b]⟩ : Vec R) [c] (by simp [Vec.WF])).1 hne
  norm_num at this

end Verif
