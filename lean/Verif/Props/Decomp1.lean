import Mathlib.Analysis.Matrix.LDL
import Mathlib.LinearAlgebra.Matrix.Block
import Verif.Model.MatDecomp
import Verif.Lemmas.VecReal
import Verif.Lemmas.Gauss

/-!
# Properties of the decompositions: Cholesky (C27)
-/

set_option linter.unusedSectionVars false

namespace Verif

open Out

variable {R : Type} [CReal R] {n r c : ℕ}

/-! ## Sums over an initial segment -/

/-- The sum of `f i` over the `i` below `k`. -/
def psum (f : Fin n → ℝ) (k : ℕ) : ℝ := ∑ i ∈ Finset.univ.filter (fun i : Fin n => i.val < k), f i

theorem psum_zero (f : Fin n → ℝ) : psum f 0 = 0 := by simp [psum]

theorem psum_succ (f : Fin n → ℝ) (k : Fin n) : psum f (k.val + 1) = psum f k + f k := by
  unfold psum
  have h : Finset.univ.filter (fun i : Fin n => i.val < k.val + 1) =
      insert k (Finset.univ.filter (fun i : Fin n => i.val < k.val)) := by
    ext i
    simp only [Finset.mem_filter, Finset.mem_univ, true_and, Finset.mem_insert, Fin.ext_iff]
    omega
  rw [h, Finset.sum_insert (by simp), add_comm]

theorem psum_all (f : Fin n → ℝ) (k : ℕ) (h : ∀ i : Fin n, k ≤ i.val → f i = 0) : psum f k = ∑ i, f i := by
  unfold psum
  refine Finset.sum_subset (Finset.filter_subset _ _) fun i _ hi => h i ?_
  simpa using hi

/-! ## C27: Cholesky decomposition -/

/-- The symmetry test answers exactly whether the matrix differs from its transpose. -/
theorem choleskyAsym_eq (x0 : XR) (A : Matrix (Fin n) (Fin n) ℝ) (t : List XR) :
    ∃ b, choleskyAsym x0 (mat A t) = ok b ∧ (b = true ↔ A.transpose ≠ A) := by
  unfold choleskyAsym
  have hloop := forRet_sat (n := n) (ρ := Bool) (f := fun i s =>
    forRet n (fun j (s : XR × XR) => do
      let (_, a) ← mtxGet (mat A t) i j s.1
      let (_, b) ← mtxGet (mat A t) j i s.2
      if CReal.ne a b then return Ctl.ret true else return Ctl.next (a, b)) s) (s := (x0, x0))
    (fun p _ => ∀ i j : Fin n, i.val < p → A i j = A j i)
    (fun x => x = true ∧ ∃ i j, A i j ≠ A j i) (fun i j h => absurd h (by omega)) (by
      rintro p hp s ih
      refine Out.sat.mono (forRet_sat (fun q _ => ∀ i j : Fin n, (i.val < p ∨ (i.val = p ∧ j.val < q)) →
        A i j = A j i) (fun x => x = true ∧ ∃ i j, A i j ≠ A j i)
        (fun i j h => ih i j (by omega)) ?_) ?_
      · rintro q hq s ih
        dsimp only
        obtain ⟨pp, rfl⟩ : ∃ pp : Fin n, pp.val = p := ⟨⟨p, hp⟩, rfl⟩
        obtain ⟨qq, rfl⟩ : ∃ qq : Fin n, qq.val = q := ⟨⟨q, hq⟩, rfl⟩
        rw [mat_get, ok_bind]
        dsimp only
        rw [mat_get, ok_bind]
        dsimp only
        by_cases hs : A pp qq = A qq pp
        · rw [if_neg (by simpa using hs)]
          refine (sat_ok _ _).2 fun i j hij => ?_
          by_cases he : i.val = pp.val ∧ j.val = qq.val
          · rw [Fin.ext he.1, Fin.ext he.2]
            exact hs
          · exact ih i j (by omega)
        · rw [if_pos (by simpa using hs)]
          exact (sat_ok _ _).2 ⟨rfl, _, _, hs⟩
      · rintro (s | x) h
        · exact fun i j hij => h i j (by have := j.2; omega)
        · exact h)
  obtain ⟨x, hx, hP⟩ := hloop
  rw [mat_rows, hx]
  rcases x with s | b
  · refine ⟨false, rfl, ?_⟩
    simp only [Bool.false_eq_true, false_iff, not_not]
    ext i j
    exact hP j i j.2
  · obtain ⟨rfl, a, b, hab⟩ := hP
    refine ⟨true, rfl, ?_⟩
    simp only [true_iff]
    intro h
    exact hab (congrFun (congrFun h b) a)

/-- The part of `C` the algorithm has filled in when it works on column `j`, down to row `i` (exclusive). -/
def cholTo (C : Matrix (Fin n) (Fin n) ℝ) (j i : ℕ) : Matrix (Fin n) (Fin n) ℝ :=
  Matrix.of fun a b => if b.val < j ∨ (b.val = j ∧ a.val < i) then C a b else 0

theorem mat_set (M : Matrix (Fin r) (Fin c) ℝ) (t : List XR) (x : ℝ) (i : Fin r) (j : Fin c) :
    mtxSet (mat M t) i j (XR.fin x) =
      ok (0, mat (Matrix.of fun a b => if a = i ∧ b = j then x else M a b) t) := by
  unfold mat
  rw [mtx_set_correct]
  congr 3
  ext a b
  simp only [Matrix.of_apply, Matrix.map_apply]
  split_ifs <;> rfl

theorem cholTo_set (C : Matrix (Fin n) (Fin n) ℝ) (j i : Fin n) :
    (Matrix.of fun a b => if a = i ∧ b = j then C i j else cholTo C j i a b) = cholTo C j (i.val + 1) := by
  ext a b
  simp only [cholTo, Matrix.of_apply]
  by_cases h : a = i ∧ b = j
  · rw [if_pos h, if_pos (by rw [h.1, h.2]; omega), h.1, h.2]
  · rw [if_neg h]
    refine if_congr ?_ rfl rfl
    rw [Fin.ext_iff, Fin.ext_iff] at h
    omega

/-- C27. Factoring is the inverse of multiplying: for every lower triangular `C` with positive diagonal, `zsl_mtx_cholesky` applied to
`C * Cᵀ` stores exactly `C`. -/
theorem mtx_cholesky_unique (x0 : XR) (C : Matrix (Fin n) (Fin n) ℝ) (B : Matrix (Fin n) (Fin n) XR) (t u : List XR)
    (hlow : ∀ i j, i < j → C i j = 0) (hpos : ∀ i, 0 < C i i) :
    mtxCholesky x0 (mat (C * C.transpose) t) (mtxOf B u) = ok (0, mat C u) := by
  set A := C * C.transpose with hA
  have hsym : A.transpose = A := by rw [hA, Matrix.transpose_mul, Matrix.transpose_transpose]
  have hAij : ∀ i j : Fin n, A i j = psum (fun k => C i k * C j k) j + C i j * C j j := by
    intro i j
    rw [hA, Matrix.mul_apply, ← psum_succ (fun k => C i k * C j k) j, psum_all]
    · rfl
    · intro k hk
      have hjk : j < k := Fin.lt_def.2 (by omega)
      rw [hlow j k hjk, mul_zero]
  unfold mtxCholesky
  rw [if_neg (by simp)]
  obtain ⟨b, hb, hiff⟩ := choleskyAsym_eq x0 A t
  have hbf : b = false := by
    rw [← Bool.not_eq_true, hiff, not_not]
    exact hsym
  rw [hb, hbf, ok_bind, if_neg (by simp), if_neg (by simp), if_neg (by simp)]
  rw [(mtx_init_empty B u).1, ok_bind]
  simp only [mat_cols]
  have hstart : mtxOf (Matrix.of fun (_ : Fin n) (_ : Fin n) => (lit 0 : XR)) u = mat (cholTo C 0 0) u := by
    unfold mat
    congr 1
    ext a b
    simp [cholTo]
  rw [hstart]
  suffices h : (forN n (fun j (s : XR × XR × Mtx XR) => do
        let (x, y, l) := s
        let (sum, x) ← forN j (fun k (s : XR × XR) => do
          let (_, x) ← mtxGet l j k s.2
          return (s.1 + x * x, x)) (lit 0, x)
        let (_, x) ← mtxGet (mat A t) j j x
        let (_, l) ← mtxSet l j j (CReal.sqrt (x - sum))
        forN (n - (j + 1)) (fun i' (s : XR × XR × Mtx XR) => do
          let i := j + 1 + i'
          let (x, y, l) := s
          let (sum, x, y) ← forN j (fun k (s : XR × XR × XR) => do
            let (_, x) ← mtxGet l j k s.2.1
            let (_, y) ← mtxGet l i k s.2.2
            return (s.1 + y * x, x, y)) (lit 0, x, y)
          let (_, x) ← mtxGet l j j x
          let (_, y) ← mtxGet (mat A t) i j y
          let (_, l) ← mtxSet l i j ((y - sum) / x)
          return (x, y, l)) (x, y, l)) (x0, x0, mat (cholTo C 0 0) u)).sat fun s => s.2.2 = mat C u by
    obtain ⟨s, hs, h2⟩ := h
    rw [hs, ok_bind, h2]
    rfl
  refine (forN_sat (fun j s => s.2.2 = mat (cholTo C j 0) u) rfl ?_).mono ?_
  · rintro j hj ⟨x, y, l⟩ hl
    dsimp only at hl ⊢
    subst hl
    obtain ⟨jj, rfl⟩ : ∃ jj : Fin n, jj.val = j := ⟨⟨j, hj⟩, rfl⟩
    -- the sum of squares
    have hsum : (forN jj.val (fun k (s : XR × XR) => do
          let (_, x) ← mtxGet (mat (cholTo C jj 0) u) jj k s.2
          return (s.1 + x * x, x)) (lit 0, x)).sat fun s => s.1 = XR.fin (psum (fun k => C jj k * C jj k) jj) := by
      refine forN_sat (fun k (s : XR × XR) => s.1 = XR.fin (psum (fun k => C jj k * C jj k) k)) ?_ ?_
      · rw [psum_zero]
        simp
      · rintro k hk ⟨s, x⟩ hs
        dsimp only at hs ⊢
        obtain ⟨kk, rfl⟩ : ∃ kk : Fin n, kk.val = k := ⟨⟨k, by omega⟩, rfl⟩
        rw [mat_get, ok_bind]
        dsimp only
        rw [pure_eq, sat_ok]
        dsimp only
        rw [hs, psum_succ]
        simp [cholTo, show kk < jj from hk]
    obtain ⟨⟨sum, x'⟩, hs1, hs2⟩ := hsum
    rw [hs1, ok_bind]
    dsimp only at hs2 ⊢
    rw [mat_get, ok_bind]
    dsimp only
    have hroot : (CReal.sqrt (XR.fin (A jj jj) - sum) : XR) = XR.fin (C jj jj) := by
      rw [hs2, XR.fin_sub, hAij jj jj, add_sub_cancel_left, XR.fin_sqrt (mul_self_nonneg _),
        Real.sqrt_mul_self (hpos jj).le]
    rw [hroot, mat_set, ok_bind]
    dsimp only
    have hset : (Matrix.of fun a b => if a = jj ∧ b = jj then C jj jj else cholTo C jj 0 a b) =
        cholTo C jj (jj.val + 1) := by
      rw [← cholTo_set]
      congr 1
      funext a b
      refine if_congr Iff.rfl rfl ?_
      simp only [cholTo, Matrix.of_apply]
      by_cases h : b.val = jj.val ∧ a.val < jj.val
      · rw [if_neg (by omega), if_pos (by omega), hlow _ _ (Fin.lt_def.2 (by omega))]
      · exact if_congr (by omega) rfl rfl
    rw [hset]
    refine (forN_sat (fun i' s => s.2.2 = mat (cholTo C jj (jj.val + 1 + i')) u) rfl ?_).mono ?_
    · rintro i' hi' ⟨x, y, l⟩ hl
      dsimp only at hl ⊢
      subst hl
      obtain ⟨ii, hii⟩ : ∃ ii : Fin n, ii.val = jj.val + 1 + i' := ⟨⟨jj.val + 1 + i', by omega⟩, rfl⟩
      rw [show jj.val + 1 + (i' + 1) = jj.val + 1 + i' + 1 by omega]
      rw [← hii]
      have hsum : (forN jj.val (fun k (s : XR × XR × XR) => do
            let (_, x) ← mtxGet (mat (cholTo C jj ii) u) jj k s.2.1
            let (_, y) ← mtxGet (mat (cholTo C jj ii) u) ii k s.2.2
            return (s.1 + y * x, x, y)) (lit 0, x, y)).sat fun s =>
            s.1 = XR.fin (psum (fun k => C ii k * C jj k) jj) := by
        refine forN_sat (fun k (s : XR × XR × XR) => s.1 = XR.fin (psum (fun k => C ii k * C jj k) k)) ?_ ?_
        · rw [psum_zero]
          simp
        · rintro k hk ⟨s, x, y⟩ hs
          dsimp only at hs ⊢
          obtain ⟨kk, rfl⟩ : ∃ kk : Fin n, kk.val = k := ⟨⟨k, by omega⟩, rfl⟩
          rw [mat_get, ok_bind]
          dsimp only
          rw [mat_get, ok_bind]
          dsimp only
          rw [pure_eq, sat_ok]
          dsimp only
          rw [hs, psum_succ]
          simp [cholTo, show kk < jj from hk]
      obtain ⟨⟨sum, x', y'⟩, hs1, hs2⟩ := hsum
      rw [hs1, ok_bind]
      dsimp only at hs2 ⊢
      rw [mat_get, ok_bind]
      dsimp only
      rw [mat_get, ok_bind]
      dsimp only
      have hdiag : cholTo C jj ii jj jj = C jj jj := by
        simp only [cholTo, Matrix.of_apply]
        rw [if_pos (Or.inr ⟨trivial, by omega⟩)]
      have hval : (XR.fin (A ii jj) - sum) / XR.fin (cholTo C jj ii jj jj) = XR.fin (C ii jj) := by
        rw [hs2, XR.fin_sub, hAij ii jj, add_sub_cancel_left, hdiag, XR.fin_div (hpos jj).ne',
          mul_div_cancel_right₀ _ (hpos jj).ne']
      rw [hval, mat_set, ok_bind]
      dsimp only
      rw [pure_eq, sat_ok, cholTo_set]
    · rintro ⟨x, y, l⟩ hl
      dsimp only at hl ⊢
      rw [hl]
      congr 1
      ext a b
      simp only [cholTo, Matrix.of_apply]
      exact if_congr (by have := a.2; omega) rfl rfl
  · rintro ⟨x, y, l⟩ hl
    dsimp only at hl ⊢
    rw [hl]
    congr 1
    ext a b
    simp only [cholTo, Matrix.of_apply]
    rw [if_pos (Or.inl b.2)]

/-- Every positive definite matrix has a Cholesky factor. -/
theorem exists_cholesky (A : Matrix (Fin n) (Fin n) ℝ) (hA : A.PosDef) :
    ∃ C : Matrix (Fin n) (Fin n) ℝ, (∀ i j, i < j → C i j = 0) ∧ (∀ i, 0 < C i i) ∧ C * C.transpose = A := by
  have hlow : (LDL.lowerInv hA).BlockTriangular OrderDual.toDual := by
    intro i j hij
    exact LDL.lowerInv_triangular hA hij
  have hL : (LDL.lower hA).BlockTriangular OrderDual.toDual := by
    exact Matrix.blockTriangular_inv_of_blockTriangular hlow
  have hunit : IsUnit (LDL.lower hA) := by
    rw [LDL.lower, Matrix.isUnit_nonsing_inv_iff]
    exact isUnit_of_invertible _
  have hdiag : ∀ i, LDL.lower hA i i ≠ 0 := by
    have hdet : (LDL.lower hA).det ≠ 0 := ((Matrix.isUnit_iff_isUnit_det _).1 hunit).ne_zero
    rw [Matrix.det_of_isLowerTriangular _ hL] at hdet
    exact fun i => Finset.prod_ne_zero_iff.1 hdet i (Finset.mem_univ i)
  have hd : ∀ i, 0 < LDL.diagEntries hA i := by
    have hpd : (LDL.diag hA).PosDef := by
      rw [LDL.diag_eq_lowerInv_conj]
      refine hA.mul_mul_conjTranspose_same ?_
      exact Matrix.vecMul_injective_of_isUnit (isUnit_of_invertible _)
    intro i
    have := hpd.diag_pos (i := i)
    rwa [LDL.diag, Matrix.diagonal_apply_eq] at this
  let s : Fin n → ℝ := fun i => if 0 < LDL.lower hA i i then 1 else -1
  have hs : ∀ i, s i * s i = 1 := by
    intro i
    simp only [s]
    split_ifs <;> norm_num
  refine ⟨LDL.lower hA * Matrix.diagonal fun i => s i * Real.sqrt (LDL.diagEntries hA i), ?_, ?_, ?_⟩
  · intro i j hij
    rw [Matrix.mul_diagonal, hL (show OrderDual.toDual j < OrderDual.toDual i from hij), zero_mul]
  · intro i
    rw [Matrix.mul_diagonal, ← mul_assoc]
    refine mul_pos ?_ (Real.sqrt_pos.2 (hd i))
    simp only [s]
    split_ifs with h
    · simpa using h
    · have := lt_of_le_of_ne (not_lt.1 h) (hdiag i)
      linarith
  · conv_rhs => rw [← LDL.lower_conj_diag hA]
    rw [Matrix.transpose_mul, Matrix.diagonal_transpose, ← Matrix.mul_assoc, Matrix.mul_assoc (LDL.lower hA),
      Matrix.diagonal_mul_diagonal, Matrix.conjTranspose_eq_transpose_of_trivial, LDL.diag]
    congr 3
    funext i
    rw [mul_mul_mul_comm, hs, one_mul, Real.mul_self_sqrt (hd i).le]

/-- C27. For a symmetric positive definite matrix `zsl_mtx_cholesky` returns 0 and stores a lower triangular matrix with positive
diagonal whose product with its transpose is the input. -/
theorem mtx_cholesky_correct (x0 : XR) (A : Matrix (Fin n) (Fin n) ℝ) (B : Matrix (Fin n) (Fin n) XR) (t u : List XR)
    (hA : A.PosDef) :
    ∃ C : Matrix (Fin n) (Fin n) ℝ, mtxCholesky x0 (mat A t) (mtxOf B u) = ok (0, mat C u) ∧
      (∀ i j, i < j → C i j = 0) ∧ (∀ i, 0 < C i i) ∧ C * C.transpose = A := by
  obtain ⟨C, h1, h2, h3⟩ := exists_cholesky A hA
  refine ⟨C, ?_, h1, h2, h3⟩
  rw [← h3]
  exact mtx_cholesky_unique x0 C B t u h1 h2

/-- C27. A matrix that is not symmetric is refused, and the output does not change. -/
theorem mtx_cholesky_asym (x0 : XR) (A : Matrix (Fin n) (Fin n) ℝ) (l : Mtx XR) (t : List XR) (hA : A.transpose ≠ A) :
    mtxCholesky x0 (mat A t) l = ok (-EINVAL, l) := by
  unfold mtxCholesky
  rw [if_neg (by simp)]
  obtain ⟨b, hb, hiff⟩ := choleskyAsym_eq x0 A t
  rw [hb, hiff.2 hA, ok_bind, if_pos rfl]
  rfl

/-- C27. An input that is not square, or an output of another shape, is refused, and the output does not change. -/
theorem mtx_cholesky_shape (x0 : XR) (A : Matrix (Fin r) (Fin c) ℝ) (l : Mtx XR) (t : List XR)
    (h : r ≠ c ∨ l.rows ≠ r ∨ l.cols ≠ c) : mtxCholesky x0 (mat A t) l = ok (-EINVAL, l) := by
  unfold mtxCholesky
  by_cases hrc : r = c
  · subst hrc
    rw [if_neg (by simp)]
    obtain ⟨b, hb, hiff⟩ := choleskyAsym_eq x0 A t
    rw [hb, ok_bind]
    rcases b with _ | _
    · rw [if_neg (by simp)]
      by_cases h1 : r = l.rows
      · rw [if_neg (by rw [mat_rows]; omega), if_pos (by rw [mat_cols]; omega)]
        rfl
      · rw [if_pos (by rw [mat_rows]; omega)]
        rfl
    · rw [if_pos rfl]
      rfl
  · rw [if_pos (by simpa using hrc)]

/-- Non-vacuity: a positive definite matrix. -/
example : ∃ C : Matrix (Fin 2) (Fin 2) ℝ, mtxCholesky (XR.fin 0) (mat !![4, 2; 2, 5] []) (mat (0 : Matrix (Fin 2) (Fin 2) ℝ) []) = ok (0, mat C []) ∧
    C = !![2, 0; 1, 2] := by
  refine ⟨!![2, 0; 1, 2], ?_, rfl⟩
  have h : (!![4, 2; 2, 5] : Matrix (Fin 2) (Fin 2) ℝ) = !![2, 0; 1, 2] * (!![2, 0; 1, 2] : Matrix (Fin 2) (Fin 2) ℝ).transpose := by
    ext i j
    fin_cases i <;> fin_cases j <;> simp [Matrix.mul_apply, Fin.sum_univ_two] <;> norm_num
  rw [h]
  refine mtx_cholesky_unique _ _ _ _ _ ?_ ?_
  · intro i j hij
    fin_cases i <;> fin_cases j <;> simp at hij ⊢
  · intro i
    fin_cases i <;> simp

end Verif
