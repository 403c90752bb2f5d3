import Verif.Props.Safe4e

/-!
# Adding a scaled row, for every pair of indices (C116)
-/

set_option linter.unusedSectionVars false

namespace Verif

open Out

variable {R : Type} [CReal R]

/-- C116. `zsl_mtx_sum_rows_scaled_d` on a matrix in a buffer without slack stays within it for every pair of indices except one kind: a source row that does
not exist, but whose index is smaller than the number of columns, with a target row that exists. -/
theorem mtx_sum_rows_scaled_safe_iff (m : Mtx R) (i j : ℕ) (s : R) (h : m.data.length = m.rows * m.cols) :
    mtxSumRowsScaledD m i j s ≠ ub ↔ ¬ (i < m.rows ∧ m.rows ≤ j ∧ j < m.cols) := by
  unfold mtxSumRowsScaledD
  by_cases hij : i ≥ m.rows ∨ j ≥ m.cols
  · rw [if_pos hij]
    exact ⟨fun _ => by omega, fun _ hh => by cases hh⟩
  rw [if_neg hij]
  constructor
  · rintro hne ⟨h1, h2, h3⟩
    apply hne
    rw [forN_start_ub (by omega)]
    · rfl
    · have h4 := flat_lt (r := m.rows) (c := m.cols) (i := i) (j := 0) h1 (by omega)
      have h5 : m.rows * m.cols ≤ j * m.cols := Nat.mul_le_mul_right _ h2
      rw [rd_lt (by omega), ok_bind, rd_ge (by omega)]
      rfl
  · intro hj
    refine Out.sat.ne_ub (P := fun _ => True) ?_
    refine Out.sat.bind (P := fun d => d.length = m.data.length) ?_ (by simp)
    refine forN_inv _ rfl fun x hx t ht => ?_
    have h1 := flat_lt (r := m.rows) (c := m.cols) (i := i) (j := x) (by omega) hx
    have h2 := flat_lt (r := m.rows) (c := m.cols) (i := j) (j := x) (by omega) hx
    simp
    omega

/-- Both cases are met by a 2x3 matrix: row 1 can be added to row 0, row 2 does not exist but is not refused. -/
example (a b c d e f s : R) : mtxSumRowsScaledD ⟨2, 3, [a, b, c, d, e, f]⟩ 0 1 s ≠ ub ∧ mtxSumRowsScaledD ⟨2, 3, [a, b, c, d, e, f]⟩ 0 2 s = ub := by
  refine ⟨(mtx_sum_rows_scaled_safe_iff _ 0 1 s (by simp)).2 (by norm_num), ?_⟩
  by_contra hne
  exact (mtx_sum_rows_scaled_safe_iff _ 0 2 s (by simp)).1 hne (by norm_num)

/-- C116. `zsl_mtx_min`, `zsl_mtx_max` and their index forms on a matrix without elements in an empty buffer: they read an element that does not exist. -/
theorem mtx_extrema_empty (m : Mtx R) (h : m.data = []) : mtxMin m = ub ∧ mtxMax m = ub ∧ mtxMinIdx m = ub ∧ mtxMaxIdx m = ub := by
  unfold mtxMin mtxMax mtxMinIdx mtxMaxIdx
  rw [h, rd_ge (by simp)]
  exact ⟨rfl, rfl, rfl, rfl⟩

example : mtxMin (⟨0, 3, []⟩ : Mtx R) = ub := (mtx_extrema_empty _ rfl).1

end Verif
