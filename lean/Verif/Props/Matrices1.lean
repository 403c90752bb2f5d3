import Mathlib.Data.Matrix.Basic
import Mathlib.LinearAlgebra.Matrix.Notation
import Mathlib.LinearAlgebra.Matrix.RowCol
import Verif.Lemmas.Matrices

/-!
# Properties of matrices: access, rows and columns, initialisation, copies, transpose (C14, C15, C16, C19)

All theorems of this file, except the one on the transpose of a product, hold for every scalar type.
-/

set_option linter.unusedSectionVars false

namespace Verif

open Out

variable {R : Type} [CReal R] {r c : ℕ}

/-! ## C14: element access -/

/-- C14. Every matrix whose buffer is large enough for its shape is some `mtxOf A t`, so the theorems below cover all of
them. -/
theorem mtx_representable (m : Mtx R) (h : m.WF) :
    ∃ (A : Matrix (Fin m.rows) (Fin m.cols) R) (t : List R), m = mtxOf A t :=
  let ⟨A, hA⟩ := mtxOf_of_wf m h
  ⟨A, _, hA⟩

/-- C14. Reading in range. -/
theorem mtx_get_correct (A : Matrix (Fin r) (Fin c) R) (t : List R) (x : R) (i : Fin r) (j : Fin c) :
    mtxGet (mtxOf A t) i j x = ok (0, A i j) := by
  rw [mtxOf_eq, mkM_get _ _ _ i.2 j.2, ext_fin]

/-- C14. Writing in range changes exactly entry `(i, j)`. -/
theorem mtx_set_correct (A : Matrix (Fin r) (Fin c) R) (t : List R) (x : R) (i : Fin r) (j : Fin c) :
    mtxSet (mtxOf A t) i j x =
      ok (0, mtxOf (Matrix.of fun a b => if a = i ∧ b = j then x else A a b) t) := by
  rw [mtxOf_eq, mkM_set _ _ _ i.2 j.2, mkM_eq_mtxOf]
  intro a b
  simp only [upd, ext_fin, Matrix.of_apply, Fin.ext_iff]

/-- C14. What is read back after a write. -/
theorem mtx_set_get (A : Matrix (Fin r) (Fin c) R) (t : List R) (x y : R) (i a : Fin r) (j b : Fin c) :
    (do
      let (_, m) ← mtxSet (mtxOf A t) i j x
      mtxGet m a b y) = ok (0, if a = i ∧ b = j then x else A a b) := by
  rw [mtx_set_correct]
  simp only [ok_bind]
  rw [mtx_get_correct]
  rfl

/-- C14. Out-of-range reads are refused, whatever the buffer. -/
theorem mtx_get_range (m : Mtx R) (i j : ℕ) (x : R) (h : m.rows ≤ i ∨ m.cols ≤ j) :
    mtxGet m i j x = ok (-EINVAL, x) := by
  unfold mtxGet
  rw [if_pos (by simpa using h)]

/-- C14. Out-of-range writes are refused and change nothing. -/
theorem mtx_set_range (m : Mtx R) (i j : ℕ) (x : R) (h : m.rows ≤ i ∨ m.cols ≤ j) :
    mtxSet m i j x = ok (-EINVAL, m) := by
  unfold mtxSet
  rw [if_pos (by simpa using h)]

/-- C14. No access leaves a well-formed buffer, whatever the indices. -/
theorem mtx_access_safe (m : Mtx R) (h : m.WF) (i j : ℕ) (x : R) :
    mtxGet m i j x ≠ ub ∧ mtxSet m i j x ≠ ub := by
  by_cases hr : m.rows ≤ i ∨ m.cols ≤ j
  · rw [mtx_get_range m i j x hr, mtx_set_range m i j x hr]
    simp
  · obtain ⟨f, hf⟩ := mkM_of_wf m h
    rw [hf, mkM_get _ _ _ (by omega) (by omega), mkM_set _ _ _ (by omega) (by omega)]
    simp

/-- Non-vacuity: a 2x3 matrix, entry (1, 2). -/
example : mtxGet (mat !![1, 2, 3; 4, 5, 6] []) 1 2 (lit 0) = ok (0, XR.fin 6) :=
  mtx_get_correct (Matrix.map !![1, 2, 3; 4, 5, 6] XR.fin) [] _ (1 : Fin 2) (2 : Fin 3)

/-! ## C15: rows and columns -/

theorem mkM_getRow (f : ℕ → ℕ → R) (t v : List R) {i : ℕ} (hi : i < r) (hv : c ≤ v.length) :
    mtxGetRow (mkM r c f t) i v = ok (0, (List.range c).map (f i) ++ v.drop c) := by
  unfold mtxGetRow
  rw [mkM_cols, forRet_next (fun j => (List.range j).map (f i) ++ v.drop j) (by simp)]
  · rfl
  · intro j hj
    rw [mkM_get _ _ _ hi hj]
    simp only [ok_bind, ne_eq, not_true_eq_false, if_false]
    rw [wr_lt _ (by simp; omega)]
    simp only [ok_bind, pure_eq]
    congr 2
    rw [List.set_append_right _ _ (by simp), List.range_succ, List.map_append]
    rw [List.length_map, List.length_range, Nat.sub_self,
      List.drop_eq_getElem_cons (by omega : j < v.length), List.set_cons_zero]
    simp

theorem mkM_getCol (f : ℕ → ℕ → R) (t v : List R) {j : ℕ} (hj : j < c) (hv : r ≤ v.length) :
    mtxGetCol (mkM r c f t) j v = ok (0, (List.range r).map (fun i => f i j) ++ v.drop r) := by
  unfold mtxGetCol
  rw [mkM_rows, forRet_next (fun i => (List.range i).map (fun i => f i j) ++ v.drop i) (by simp)]
  · rfl
  · intro i hi
    rw [mkM_get _ _ _ hi hj]
    simp only [ok_bind, ne_eq, not_true_eq_false, if_false]
    rw [wr_lt _ (by simp; omega)]
    simp only [ok_bind, pure_eq]
    congr 2
    rw [List.set_append_right _ _ (by simp), List.range_succ, List.map_append]
    rw [List.length_map, List.length_range, Nat.sub_self,
      List.drop_eq_getElem_cons (by omega : i < v.length), List.set_cons_zero]
    simp

theorem mkM_setRow (f : ℕ → ℕ → R) (t v : List R) (x : ℕ → R) {i : ℕ} (hi : i < r)
    (hv : ∀ j, j < c → rd v j = ok (x j)) :
    mtxSetRow (mkM r c f t) i v = ok (0, mkM r c (fun a b => if a = i then x b else f a b) t) := by
  unfold mtxSetRow
  rw [mkM_cols, forRet_next (fun j => mkM r c (fun a b => if a = i ∧ b < j then x b else f a b) t)]
  · simp only [ok_bind, pure_eq]
    congr 2
    apply mkM_congr
    intro a _ b hb
    simp [hb]
  · apply mkM_congr
    simp
  · intro j hj
    rw [hv j hj, ok_bind, mkM_set _ _ _ hi hj]
    simp only [ok_bind, pure_eq, ne_eq, not_true_eq_false, if_false]
    congr 2
    apply mkM_congr
    intro a _ b _
    unfold upd
    by_cases h1 : a = i ∧ b = j
    · obtain ⟨rfl, rfl⟩ := h1
      simp
    · rw [if_neg h1]
      have : (a = i ∧ b < j + 1) ↔ (a = i ∧ b < j) := by omega
      simp only [this]

theorem mkM_setCol (f : ℕ → ℕ → R) (t v : List R) (x : ℕ → R) {j : ℕ} (hj : j < c)
    (hv : ∀ i, i < r → rd v i = ok (x i)) :
    mtxSetCol (mkM r c f t) j v = ok (0, mkM r c (fun a b => if b = j then x a else f a b) t) := by
  unfold mtxSetCol
  rw [mkM_rows, forRet_next (fun i => mkM r c (fun a b => if b = j ∧ a < i then x a else f a b) t)]
  · simp only [ok_bind, pure_eq]
    congr 2
    apply mkM_congr
    intro a ha b hb
    simp [ha]
  · apply mkM_congr
    simp
  · intro i hi
    rw [hv i hi, ok_bind, mkM_set _ _ _ hi hj]
    simp only [ok_bind, pure_eq, ne_eq, not_true_eq_false, if_false]
    congr 2
    apply mkM_congr
    intro a _ b _
    unfold upd
    by_cases h1 : a = i ∧ b = j
    · obtain ⟨rfl, rfl⟩ := h1
      simp
    · rw [if_neg h1]
      have : (b = j ∧ a < i + 1) ↔ (b = j ∧ a < i) := by omega
      simp only [this]

theorem range_map_eq_ofFn {n : ℕ} {x : Fin n → R} {f : ℕ → R} (h : ∀ i : Fin n, f i = x i) :
    (List.range n).map f = List.ofFn x := by
  apply List.ext_getElem
  · simp
  · intro k h1 h2
    simpa using h ⟨k, by simpa using h1⟩

theorem arrOf_rd {n : ℕ} (x : Fin n → R) (t : List R) {i : ℕ} (hi : i < n) :
    rd (arrOf x t) i = ok (x ⟨i, hi⟩) := by
  apply rd_of
  unfold arrOf
  rw [List.getElem?_append_left (by simpa using hi)]
  simp [hi]

/-- C15. `zsl_mtx_get_row` returns exactly row `i` and touches nothing behind it. -/
theorem mtx_get_row_correct (A : Matrix (Fin r) (Fin c) R) (t s : List R) (v : Fin c → R) (i : Fin r) :
    mtxGetRow (mtxOf A t) i (arrOf v s) = ok (0, arrOf (A i) s) := by
  rw [mtxOf_eq, mkM_getRow _ _ _ i.2 (by simp [arrOf]), range_map_eq_ofFn (x := A i) (by simp)]
  simp [arrOf]

/-- C15. `zsl_mtx_get_col` returns exactly column `j` and touches nothing behind it. -/
theorem mtx_get_col_correct (A : Matrix (Fin r) (Fin c) R) (t s : List R) (v : Fin r → R) (j : Fin c) :
    mtxGetCol (mtxOf A t) j (arrOf v s) = ok (0, arrOf (fun i => A i j) s) := by
  rw [mtxOf_eq, mkM_getCol _ _ _ j.2 (by simp [arrOf]),
    range_map_eq_ofFn (x := fun i => A i j) (by simp)]
  simp [arrOf]

/-- C15. `zsl_mtx_set_row` replaces exactly row `i`. -/
theorem mtx_set_row_correct (A : Matrix (Fin r) (Fin c) R) (t s : List R) (v : Fin c → R) (i : Fin r) :
    mtxSetRow (mtxOf A t) i (arrOf v s) = ok (0, mtxOf (A.updateRow i v) t) := by
  rw [mtxOf_eq, mkM_setRow _ _ _ (fun j => if h : j < c then v ⟨j, h⟩ else lit 0) i.2, mkM_eq_mtxOf]
  · intro a b
    simp only [ext_fin, Matrix.updateRow_apply, Fin.ext_iff, Fin.is_lt, dite_true]
  · intro j hj
    rw [arrOf_rd v s hj, dif_pos hj]

/-- C15. `zsl_mtx_set_col` replaces exactly column `j`. -/
theorem mtx_set_col_correct (A : Matrix (Fin r) (Fin c) R) (t s : List R) (v : Fin r → R) (j : Fin c) :
    mtxSetCol (mtxOf A t) j (arrOf v s) = ok (0, mtxOf (A.updateCol j v) t) := by
  rw [mtxOf_eq, mkM_setCol _ _ _ (fun i => if h : i < r then v ⟨i, h⟩ else lit 0) j.2, mkM_eq_mtxOf]
  · intro a b
    simp only [ext_fin, Matrix.updateCol_apply, Fin.ext_iff, Fin.is_lt, dite_true]
  · intro i hi
    rw [arrOf_rd v s hi, dif_pos hi]

theorem forRet_first {σ ρ : Type} {n : ℕ} {f : ℕ → σ → Out (Ctl σ ρ)} {s : σ} {x : ρ} (hn : 0 < n)
    (h : f 0 s = ok (.ret x)) : forRet n f s = ok (.ret x) := by
  induction n with
  | zero => omega
  | succ n ih =>
    rw [forRet]
    rcases Nat.eq_zero_or_pos n with rfl | hn
    · simpa using h
    · rw [ih hn]
      rfl

/-- C15. A row index out of range is refused without change (the matrix has at least one column). -/
theorem mtx_row_range (m : Mtx R) (i : ℕ) (v : List R) (hi : m.rows ≤ i) (hc : 0 < m.cols)
    (hv : m.cols ≤ v.length) :
    mtxGetRow m i v = ok (-EINVAL, v) ∧ mtxSetRow m i v = ok (-EINVAL, m) := by
  constructor
  · unfold mtxGetRow
    rw [forRet_first (x := (-EINVAL, v)) hc]
    · rfl
    · rw [mtx_get_range m i 0 _ (Or.inl hi)]
      simp [EINVAL]
  · unfold mtxSetRow
    rw [forRet_first (x := (-EINVAL, m)) hc]
    · rfl
    · rw [rd_lt (by omega), ok_bind, mtx_set_range m i 0 _ (Or.inl hi)]
      simp [EINVAL]

/-- C15. A column index out of range is refused without change (the matrix has at least one row). -/
theorem mtx_col_range (m : Mtx R) (j : ℕ) (v : List R) (hj : m.cols ≤ j) (hr : 0 < m.rows)
    (hv : m.rows ≤ v.length) :
    mtxGetCol m j v = ok (-EINVAL, v) ∧ mtxSetCol m j v = ok (-EINVAL, m) := by
  constructor
  · unfold mtxGetCol
    rw [forRet_first (x := (-EINVAL, v)) hr]
    · rfl
    · rw [mtx_get_range m 0 j _ (Or.inr hj)]
      simp [EINVAL]
  · unfold mtxSetCol
    rw [forRet_first (x := (-EINVAL, m)) hr]
    · rfl
    · rw [rd_lt (by omega), ok_bind, mtx_set_range m 0 j _ (Or.inr hj)]
      simp [EINVAL]

/-- C15. What was stored as row `i` is what is read back, and every other row is as before. -/
theorem mtx_set_row_get_row (A : Matrix (Fin r) (Fin c) R) (t s s' : List R) (v w : Fin c → R)
    (i k : Fin r) :
    (do
      let (_, m) ← mtxSetRow (mtxOf A t) i (arrOf v s)
      mtxGetRow m k (arrOf w s')) = ok (0, arrOf (if k = i then v else A k) s') := by
  rw [mtx_set_row_correct]
  simp only [ok_bind]
  rw [mtx_get_row_correct]
  by_cases h : k = i
  · subst h
    simp
  · simp [h, Matrix.updateRow_ne]

/-- C15. The same for columns. -/
theorem mtx_set_col_get_col (A : Matrix (Fin r) (Fin c) R) (t s s' : List R) (v w : Fin r → R)
    (j k : Fin c) :
    (do
      let (_, m) ← mtxSetCol (mtxOf A t) j (arrOf v s)
      mtxGetCol m k (arrOf w s')) = ok (0, arrOf (if k = j then v else fun i => A i k) s') := by
  rw [mtx_set_col_correct]
  simp only [ok_bind]
  rw [mtx_get_col_correct]
  congr 3
  by_cases h : k = j
  · subst h
    simp
  · simp only [h, if_false]
    funext i
    rw [Matrix.updateCol_ne h]

/-! ## C16: initialisation, import, copy -/

/-- C16. `zsl_mtx_init` with a callback that stores `F i j` at `(i, j)`. -/
theorem mtx_init_callback (A F : Matrix (Fin r) (Fin c) R) (t : List R) (fn : EntryFn R)
    (hfn : ∀ (B : Matrix (Fin r) (Fin c) R) (i : Fin r) (j : Fin c),
      fn (mtxOf B t) i j = mtxSet (mtxOf B t) i j (F i j)) :
    mtxInit (mtxOf A t) (some fn) = ok (0, mtxOf F t) := by
  unfold mtxInit
  rw [mtxOf_rows, mtxOf_cols, mtxOf_eq, mtxOf_eq]
  refine forEntries_fill (fun f => mkM r c f t) (fun f g h => mkM_congr h) (ext F) ?_
  intro i hi j hj
  have := hfn (Matrix.of fun a b => mix i j (ext F) (ext A) a b) ⟨i, hi⟩ ⟨j, hj⟩
  rw [← mkM_eq] at this
  simp only at this ⊢
  rw [this, mkM_set _ _ _ hi hj, ext_lt _ hi hj]

/-- C16. The NULL callback zeroes every element. -/
theorem mtx_init_null (A : Matrix (Fin r) (Fin c) R) (t : List R) :
    mtxInit (mtxOf A t) none = ok (0, mtxOf (Matrix.of fun (_ : Fin r) (_ : Fin c) => lit 0) t) :=
  mtx_init_callback A (Matrix.of fun _ _ => lit 0) t entryFnEmpty fun _ _ _ => rfl

/-- C16. So does the empty callback (and, as implemented, the random callback). -/
theorem mtx_init_empty (A : Matrix (Fin r) (Fin c) R) (t : List R) :
    mtxInit (mtxOf A t) (some entryFnEmpty) = ok (0, mtxOf (Matrix.of fun (_ : Fin r) (_ : Fin c) => lit 0) t) ∧
    mtxInit (mtxOf A t) (some entryFnRandom) = ok (0, mtxOf (Matrix.of fun (_ : Fin r) (_ : Fin c) => lit 0) t) :=
  ⟨mtx_init_callback A _ t _ fun _ _ _ => rfl, mtx_init_callback A _ t _ fun _ _ _ => rfl⟩

/-- C16. The identity callback gives the identity pattern, for every shape. -/
theorem mtx_init_identity (A : Matrix (Fin r) (Fin c) R) (t : List R) :
    mtxInit (mtxOf A t) (some entryFnIdentity) =
      ok (0, mtxOf (Matrix.of fun (i : Fin r) (j : Fin c) => if i.val = j.val then lit 1 else lit 0) t) :=
  mtx_init_callback A _ t _ fun _ _ _ => rfl

/-- C16. For a square real matrix this is the identity matrix. -/
theorem mtx_init_identity_real {n : ℕ} (A : Matrix (Fin n) (Fin n) ℝ) (t : List XR) :
    mtxInit (mat A t) (some entryFnIdentity) = ok (0, mat (1 : Matrix (Fin n) (Fin n) ℝ) t) := by
  unfold mat
  rw [mtx_init_identity]
  congr 3
  funext i j
  simp only [Matrix.of_apply, Matrix.map_apply, Matrix.one_apply, Fin.ext_iff]
  split_ifs <;> simp

/-- The index pair `(a, b)` comes before `(i, j)` in row-major order. -/
def Before (a b i j : ℕ) : Prop := a < i ∨ (a = i ∧ b < j)

instance (a b i j : ℕ) : Decidable (Before a b i j) := by unfold Before; infer_instance

theorem forRet_prefix {σ ρ : Type} {n k : ℕ} {f : ℕ → σ → Out (Ctl σ ρ)} {s : σ} {x : ρ} (g : ℕ → σ)
    (hk : k < n) (h0 : g 0 = s) (hs : ∀ i, i < k → f i (g i) = ok (.next (g (i + 1))))
    (hr : f k (g k) = ok (.ret x)) : forRet n f s = ok (.ret x) := by
  induction n with
  | zero => omega
  | succ n ih =>
    rw [forRet]
    by_cases h : k < n
    · rw [ih h]
      rfl
    · obtain rfl : k = n := by omega
      rw [forRet_next g h0 hs]
      exact hr

/-- C16. A callback that fails at `(i₀, j₀)` stops the initialisation there: its code is returned, the entries before are
set, all others are as before. -/
theorem mtx_init_fail (A F : Matrix (Fin r) (Fin c) R) (t : List R) (fn : EntryFn R) (rc : Int)
    (i₀ : Fin r) (j₀ : Fin c) (hrc : rc ≠ 0)
    (hfn : ∀ (B : Matrix (Fin r) (Fin c) R) (i : Fin r) (j : Fin c), Before i j i₀ j₀ →
      fn (mtxOf B t) i j = mtxSet (mtxOf B t) i j (F i j))
    (hfail : ∀ B : Matrix (Fin r) (Fin c) R, fn (mtxOf B t) i₀ j₀ = ok (rc, mtxOf B t)) :
    mtxInit (mtxOf A t) (some fn) =
      ok (rc, mtxOf (Matrix.of fun (i : Fin r) (j : Fin c) => if Before i j i₀ j₀ then F i j else A i j) t) := by
  have hfn' : ∀ f : ℕ → ℕ → R, ∀ i j (hi : i < r) (hj : j < c), Before i j i₀ j₀ →
      fn (mkM r c f t) i j = ok (0, mkM r c (upd f i j (F ⟨i, hi⟩ ⟨j, hj⟩)) t) := by
    intro f i j hi hj h
    have := hfn (Matrix.of fun a b => f a b) ⟨i, hi⟩ ⟨j, hj⟩ h
    rw [← mkM_eq] at this
    rw [this, mkM_set _ _ _ hi hj]
  have hfail' : ∀ f : ℕ → ℕ → R, fn (mkM r c f t) i₀ j₀ = ok (rc, mkM r c f t) := by
    intro f
    have := hfail (Matrix.of fun a b => f a b)
    rwa [← mkM_eq] at this
  unfold mtxInit forEntries
  rw [mtxOf_rows, mtxOf_cols, mtxOf_eq]
  rw [forRet_prefix (k := i₀) (x := (rc, mkM r c (mix i₀ j₀ (ext F) (ext A)) t))
    (fun i => mkM r c (mix i 0 (ext F) (ext A)) t) i₀.2]
  · simp only [ok_bind, pure_eq]
    congr 2
    apply mkM_eq_mtxOf
    intro i j
    simp [mix, Before]
  · apply mkM_congr
    intro i _ j _
    simp [mix]
  · intro i hi
    rw [forRet_next (fun j => mkM r c (mix i j (ext F) (ext A)) t) rfl]
    · congr 2
      apply mkM_congr
      intro a _ b hb
      unfold mix
      split_ifs <;> first | rfl | (exfalso; omega)
    · intro j hj
      dsimp only
      rw [hfn' _ i j (by omega) hj (Or.inl hi)]
      simp only [ok_bind, ne_eq, not_true_eq_false, if_false, pure_eq]
      rw [← upd_mix, ext_lt F (by omega) hj]
  · rw [forRet_prefix (k := j₀) (x := (rc, mkM r c (mix i₀ j₀ (ext F) (ext A)) t))
      (fun j => mkM r c (mix i₀ j (ext F) (ext A)) t) j₀.2 rfl]
    · intro j hj
      dsimp only
      rw [hfn' _ i₀ j i₀.2 (by omega) (Or.inr ⟨rfl, hj⟩)]
      simp only [ok_bind, ne_eq, not_true_eq_false, if_false, pure_eq]
      rw [← upd_mix, ext_lt F i₀.2 (by omega)]
    · simp only [hfail', ok_bind, ne_eq, hrc, not_false_eq_true, if_true, pure_eq]

/-- Non-vacuity: a callback as in `mtx_init_fail`, failing at (1, 0) with code 7. -/
example (t : List XR) : ∃ fn : EntryFn XR,
    (∀ (B : Matrix (Fin 2) (Fin 2) XR) (i j : Fin 2), Before i j 1 0 →
      fn (mtxOf B t) i j = mtxSet (mtxOf B t) i j (lit 5)) ∧
    ∀ B : Matrix (Fin 2) (Fin 2) XR, fn (mtxOf B t) 1 0 = ok (7, mtxOf B t) := by
  refine ⟨fun m i j => if Before i j 1 0 then mtxSet m i j (lit 5) else ok (7, m), ?_, ?_⟩
  · intro B i j h
    exact if_pos h
  · intro B
    exact if_neg (by decide)

/-- C16. `zsl_mtx_from_arr` installs the array in row-major order. -/
theorem mtx_from_arr_correct (A : Matrix (Fin r) (Fin c) R) (t a : List R) (ha : r * c ≤ a.length) :
    mtxFromArr (mtxOf A t) a =
      ok (0, mtxOf (Matrix.of fun (i : Fin r) (j : Fin c) => a[i.val * c + j.val]'(by
        have := flat_lt i.2 j.2
        omega)) t) := by
  unfold mtxFromArr
  rw [mtxOf_rows, mtxOf_cols, memcpyAt_eq (by rw [mtxOf_eq]; simp) (by omega), mtxOf_eq, mtxOf_eq]
  simp only [ok_bind, pure_eq, mkM_data, mkD_drop, List.drop_zero]
  congr 2
  unfold mkM
  congr 1
  unfold mkD
  congr 1
  apply List.ext_getElem
  · simpa using ha
  · intro k h1 h2
    simp only [List.length_map, List.length_range] at h2
    have hc : 0 < c := by
      rcases Nat.eq_zero_or_pos c with rfl | h
      · simp at h2
      · exact h
    simp only [List.getElem_take, List.getElem_map, List.getElem_range]
    rw [ext_lt _ (Nat.div_lt_of_lt_mul (by rwa [Nat.mul_comm] at h2)) (Nat.mod_lt _ hc)]
    simp only [Matrix.of_apply]
    congr 1
    rw [Nat.mul_comm, Nat.div_add_mod]

/-- C16. `zsl_mtx_copy` reproduces the source and touches nothing behind the matrix. -/
theorem mtx_copy_correct (A B : Matrix (Fin r) (Fin c) R) (t u : List R) :
    mtxCopy (mtxOf B u) (mtxOf A t) = ok (0, mtxOf A u) := by
  unfold mtxCopy
  rw [if_neg (by simp), mtxOf_rows, mtxOf_cols,
    memcpyAt_eq (by rw [mtxOf_eq]; simp) (by rw [mtxOf_eq]; simp)]
  rw [mtxOf_eq, mtxOf_eq, mtxOf_eq]
  simp only [ok_bind, pure_eq, mkM_data, mkD_drop, List.drop_zero, mkD_take, mkD_nil_append]
  rfl

/-- C16. A shape mismatch is refused without writing. -/
theorem mtx_copy_shape (d s : Mtx R) (h : d.rows ≠ s.rows ∨ d.cols ≠ s.cols) :
    mtxCopy d s = ok (-EINVAL, d) := by
  unfold mtxCopy
  rw [if_pos h]

/-! ## C19: transpose -/

/-- C19. `zsl_mtx_trans` stores the transpose, whatever the output and the stack held before. -/
theorem mtx_trans_correct (junk : ℕ → R) (A : Matrix (Fin r) (Fin c) R) (B : Matrix (Fin c) (Fin r) R)
    (t u : List R) (hc : 0 < c) :
    mtxTrans junk (mtxOf A t) (mtxOf B u) = ok (0, mtxOf A.transpose u) := by
  unfold mtxTrans
  rw [if_neg (by simp), if_neg (by simp; omega)]
  rw [mtxOf_rows, mtxOf_cols, mtxOf_eq, mtxOf_eq, mtxOf_eq]
  have h := forN_sat (n := r)
    (f := fun i (s : List R × Mtx R) => do
      let (_, d) ← mtxGetRow (mkM r c (ext A) t) i s.1
      let (_, mb) ← mtxSetCol s.2 i d
      return (d, mb))
    (s := (junkArr junk c, mkM c r (ext B) u))
    (fun i s => s.1.length = c ∧
      s.2 = mkM c r (fun a b => if b < i then ext A b a else ext B a b) u)
    ⟨by simp [junkArr], mkM_congr (by simp)⟩ (by
      rintro i hi ⟨d, mb⟩ ⟨hd, hmb⟩
      dsimp only at hd hmb ⊢
      subst hmb
      rw [mkM_getRow _ _ _ hi hd.ge]
      simp only [ok_bind]
      rw [mkM_setCol _ _ _ (fun a => ext A i a) hi]
      · simp only [ok_bind, pure_eq, sat_ok]
        refine ⟨by simp; omega, mkM_congr ?_⟩
        intro a _ b _
        by_cases h1 : b = i
        · simp [h1]
        · simp only [h1, if_false]
          split_ifs <;> first | rfl | (exfalso; omega)
      · intro a ha
        apply rd_of
        rw [List.getElem?_append_left (by simpa using ha)]
        simp [ha])
  obtain ⟨⟨d, mb⟩, h1, _, h2⟩ := h
  rw [h1]
  simp only [ok_bind, pure_eq]
  dsimp only at h2
  rw [h2]
  congr 2
  apply mkM_congr
  intro a ha b hb
  rw [if_pos hb, ext_lt _ hb ha, ext_lt _ ha hb]
  rfl

/-- C19. Transposing twice gives the original. -/
theorem mtx_trans_twice (junk : ℕ → R) (A B' : Matrix (Fin r) (Fin c) R) (B : Matrix (Fin c) (Fin r) R)
    (t u w : List R) (hc : 0 < c) (hr : 0 < r) :
    (do
      let (_, m) ← mtxTrans junk (mtxOf A t) (mtxOf B u)
      mtxTrans junk m (mtxOf B' w)) = ok (0, mtxOf A w) := by
  rw [mtx_trans_correct _ _ _ _ _ hc]
  simp only [ok_bind]
  rw [mtx_trans_correct _ _ _ _ _ hr, Matrix.transpose_transpose]

/-- C19. A wrong output shape is refused without writing. -/
theorem mtx_trans_shape (junk : ℕ → R) (a b : Mtx R) (h : a.rows ≠ b.cols ∨ a.cols ≠ b.rows) :
    mtxTrans junk a b = ok (-EINVAL, b) := by
  unfold mtxTrans
  rw [if_pos h]

/-- Non-vacuity: a 2x3 transpose. -/
example (junk : ℕ → XR) (u : List XR) (B : Matrix (Fin 3) (Fin 2) XR) :
    mtxTrans junk (mat !![1, 2, 3; 4, 5, 6] []) (mtxOf B u) = ok (0, mat !![1, 4; 2, 5; 3, 6] u) := by
  unfold mat
  rw [mtx_trans_correct _ _ _ _ _ (by omega)]
  congr 3
  funext i j
  fin_cases i <;> fin_cases j <;> rfl

end Verif
