import Verif.Props.Safe4b

/-!
# Rows and columns copied from and to arrays that are too short (C116)

The converses of `mtx_get_row_safe`, `mtx_get_col_safe` and `mtx_set_row_safe`.
-/

set_option linter.unusedSectionVars false

namespace Verif

open Out

variable {R : Type} [CReal R]

/-- Reading an element that exists. -/
theorem mtxGet_in {m : Mtx R} {i j : ℕ} (x : R) (h : m.WF) (hi : i < m.rows) (hj : j < m.cols) : (mtxGet m i j x).sat fun p => p.1 = 0 := by
  obtain ⟨⟨rc, y⟩, h1, -⟩ := mtx_get_safe m i j x h
  refine ⟨(rc, y), h1, ?_⟩
  unfold mtxGet at h1
  rw [if_neg (by omega)] at h1
  cases hw : rd m.data (i * m.cols + j) with
  | ub => rw [hw] at h1; cases h1
  | ok d =>
    rw [hw] at h1
    simp only [ok_bind, pure_eq, Out.ok.injEq, Prod.mk.injEq] at h1
    exact h1.1.symm

/-- Writing an element that exists. -/
theorem mtxSet_in {m : Mtx R} {i j : ℕ} (x : R) (h : m.WF) (hi : i < m.rows) (hj : j < m.cols) :
    (mtxSet m i j x).sat fun p => p.1 = 0 ∧ m.Like p.2 := by
  obtain ⟨⟨rc, y⟩, h1, h2⟩ := mtx_set_safe m i j x h
  refine ⟨(rc, y), h1, ?_, h2⟩
  unfold mtxSet at h1
  rw [if_neg (by omega)] at h1
  cases hw : wr m.data (i * m.cols + j) x with
  | ub => rw [hw] at h1; cases h1
  | ok d =>
    rw [hw] at h1
    simp only [ok_bind, pure_eq, Out.ok.injEq, Prod.mk.injEq] at h1
    exact h1.1.symm

/-- A loop that goes on for `k` iterations and is undefined in the next. -/
theorem forRet_reach_ub {σ ρ : Type} {n k : ℕ} {f : ℕ → σ → Out (Ctl σ ρ)} {s : σ} (P : σ → Prop) (hk : k < n) (h0 : P s)
    (hs : ∀ i, i < k → ∀ t, P t → ∃ t', f i t = ok (.next t') ∧ P t') (hu : ∀ t, P t → f k t = ub) : forRet n f s = ub := by
  have hsat : ∃ t, forRet k f s = ok (.next t) ∧ P t := by
    clear hu hk
    induction k with
    | zero => exact ⟨s, rfl, h0⟩
    | succ k ih =>
      obtain ⟨t, h1, h2⟩ := ih fun i hi => hs i (by omega)
      obtain ⟨t', h3, h4⟩ := hs k (by omega) t h2
      refine ⟨t', ?_, h4⟩
      rw [forRet, h1, ok_bind]
      exact h3
  obtain ⟨t, h1, h2⟩ := hsat
  refine forRet_mono_ub (k := k + 1) ?_ hk
  rw [forRet, h1, ok_bind]
  exact hu t h2

/-- C116. `zsl_mtx_get_row` writes past the end of an array that is shorter than the row. -/
theorem mtx_get_row_overrun (m : Mtx R) (i : ℕ) (v : List R) (h : m.WF) (hi : i < m.rows) (hv : v.length < m.cols) : mtxGetRow m i v = ub := by
  unfold mtxGetRow
  rw [forRet_reach_ub (k := v.length) (fun t => t.length = v.length) hv rfl]
  · rfl
  · intro j hj t ht
    obtain ⟨⟨rc, x⟩, h1, h2⟩ := mtxGet_in (lit 0) h hi (hj.trans hv)
    dsimp only at h2
    subst h2
    refine ⟨t.set j x, ?_, by simpa using ht⟩
    rw [h1, ok_bind]
    simp only [ne_eq, not_true_eq_false, if_false]
    rw [wr_lt x (by omega)]
    rfl
  · intro t ht
    obtain ⟨⟨rc, x⟩, h1, h2⟩ := mtxGet_in (lit 0) h hi hv
    dsimp only at h2
    subst h2
    rw [h1, ok_bind]
    simp only [ne_eq, not_true_eq_false, if_false]
    rw [wr_ge x (by omega)]
    rfl

/-- C116. `zsl_mtx_get_col` writes past the end of an array that is shorter than the column. -/
theorem mtx_get_col_overrun (m : Mtx R) (j : ℕ) (v : List R) (h : m.WF) (hj : j < m.cols) (hv : v.length < m.rows) : mtxGetCol m j v = ub := by
  unfold mtxGetCol
  rw [forRet_reach_ub (k := v.length) (fun t => t.length = v.length) hv rfl]
  · rfl
  · intro i hi t ht
    obtain ⟨⟨rc, x⟩, h1, h2⟩ := mtxGet_in (lit 0) h (hi.trans hv) hj
    dsimp only at h2
    subst h2
    refine ⟨t.set i x, ?_, by simpa using ht⟩
    rw [h1, ok_bind]
    simp only [ne_eq, not_true_eq_false, if_false]
    rw [wr_lt x (by omega)]
    rfl
  · intro t ht
    obtain ⟨⟨rc, x⟩, h1, h2⟩ := mtxGet_in (lit 0) h hv hj
    dsimp only at h2
    subst h2
    rw [h1, ok_bind]
    simp only [ne_eq, not_true_eq_false, if_false]
    rw [wr_ge x (by omega)]
    rfl

/-- C116. `zsl_mtx_set_row` reads past the end of an array that is shorter than the row. -/
theorem mtx_set_row_overread (m : Mtx R) (i : ℕ) (v : List R) (h : m.WF) (hi : i < m.rows) (hv : v.length < m.cols) : mtxSetRow m i v = ub := by
  unfold mtxSetRow
  rw [forRet_reach_ub (k := v.length) (fun t => m.Like t) hv (.refl _)]
  · rfl
  · intro j hj t ht
    obtain ⟨⟨rc, t'⟩, h1, h2, h3⟩ := mtxSet_in v[j] (ht.wf h) (by rw [ht.1]; exact hi) (by rw [ht.2.1]; exact hj.trans hv)
    dsimp only at h2 h3
    subst h2
    refine ⟨t', ?_, ht.trans h3⟩
    rw [rd_lt hj, ok_bind, h1, ok_bind]
    rfl
  · intro t ht
    rw [rd_ge le_rfl]
    rfl

/-- C116. For indices inside the matrix, the four functions that copy rows and columns stay within their buffers exactly when the array is long enough. -/
theorem mtx_row_col_safe_iff (m : Mtx R) (i j : ℕ) (v : List R) (h : m.WF) (hi : i < m.rows) (hj : j < m.cols) :
    (mtxGetRow m i v ≠ ub ↔ m.cols ≤ v.length) ∧ (mtxSetRow m i v ≠ ub ↔ m.cols ≤ v.length) ∧
    (mtxGetCol m j v ≠ ub ↔ m.rows ≤ v.length) ∧ (mtxSetCol m j v ≠ ub ↔ m.rows ≤ v.length) := by
  have key : ∀ {α : Type} {x : Out α} {P : α → Prop} {a b : ℕ}, (b < a → x = ub) → (a ≤ b → x.sat P) → (x ≠ ub ↔ a ≤ b) := by
    intro α x P a b h1 h2
    constructor
    · intro hx
      by_contra hab
      exact hx (h1 (by omega))
    · intro hab
      obtain ⟨y, hy, -⟩ := h2 hab
      rw [hy]
      exact fun hh => by cases hh
  exact ⟨key (mtx_get_row_overrun m i v h hi) (mtx_get_row_safe m i v h), key (mtx_set_row_overread m i v h hi) (mtx_set_row_safe m i v h),
    key (mtx_get_col_overrun m j v h hj) (mtx_get_col_safe m j v h), key (mtx_set_col_overread m j v h hj) (mtx_set_col_safe m j v h)⟩

/-- The hypotheses are met: row 1 of a 2x3 matrix and an array of two elements. -/
example (a b c d e f x y : R) : mtxGetRow ⟨2, 3, [a, b, c, d, e, f]⟩ 1 [x, y] = ub ∧ mtxSetRow ⟨2, 3, [a, b, c, d, e, f]⟩ 1 [x, y] = ub ∧
    mtxGetCol ⟨2, 3, [a, b, c, d, e, f]⟩ 2 [x, y] ≠ ub := by
  have h : (⟨2, 3, [a, b, c, d, e, f]⟩ : Mtx R).WF := by simp [Mtx.WF]
  exact ⟨mtx_get_row_overrun _ 1 _ h (by norm_num) (by simp), mtx_set_row_overread _ 1 _ h (by norm_num) (by simp),
    (mtx_row_col_safe_iff _ 1 2 [x, y] h (by norm_num) (by norm_num)).2.2.1.2 (by simp)⟩

end Verif
