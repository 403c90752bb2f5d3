import Verif.Props.Stat4
import Mathlib.LinearAlgebra.Matrix.Rank

/-!
# Statistics: fitting a quadric (C108)
-/

namespace Verif

open Out

variable {r : ℕ}

/-! ## Specification -/

/-- The left side of the equation `Ax² + By² + Cz² + 2Dxy + 2Exz + 2Fyz + 2Gx + 2Hy + 2Iz = 1` of a quadric. -/
def quadric (c : Fin 9 → ℝ) (p : Fin 3 → ℝ) : ℝ :=
  c 0 * p 0 ^ 2 + c 1 * p 1 ^ 2 + c 2 * p 2 ^ 2 + 2 * c 3 * p 0 * p 1 + 2 * c 4 * p 0 * p 2 + 2 * c 5 * p 1 * p 2 +
    2 * c 6 * p 0 + 2 * c 7 * p 1 + 2 * c 8 * p 2

/-- How badly the points miss the quadric: the sum of the squared errors in its equation. -/
def quadMiss (c : Fin 9 → ℝ) (P : Matrix (Fin r) (Fin 3) ℝ) : ℝ := ∑ i, (1 - quadric c (P i)) ^ 2

/-! ## The design matrix -/

/-- The nine terms of a point. -/
def quadTerms (p : Fin 3 → ℝ) : Fin 9 → ℝ :=
  ![p 0 * p 0, p 1 * p 1, p 2 * p 2, 2 * p 0 * p 1, 2 * p 0 * p 2, 2 * p 1 * p 2, 2 * p 0, 2 * p 1, 2 * p 2]

def quadDesign (P : Matrix (Fin r) (Fin 3) ℝ) : Matrix (Fin r) (Fin 9) ℝ := Matrix.of fun i => quadTerms (P i)

theorem quadDesign_mulVec (P : Matrix (Fin r) (Fin 3) ℝ) (c : Fin 9 → ℝ) (i : Fin r) : (quadDesign P).mulVec c i = quadric c (P i) := by
  simp [Matrix.mulVec, dotProduct, quadDesign, quadTerms, quadric, Fin.sum_univ_succ]
  ring

theorem quadMiss_eq (P : Matrix (Fin r) (Fin 3) ℝ) (c : Fin 9 → ℝ) :
    quadMiss c P = ∑ i, (1 : Fin r → ℝ) i * ((1 : Fin r → ℝ) i - (quadDesign P).mulVec c i) ^ 2 := by
  simp only [quadMiss, quadDesign_mulVec, Pi.one_apply, one_mul]

theorem lit_two : (lit 2 : XR) = XR.fin 2 := by simp

theorem quadRow_eq (p : Fin 3 → ℝ) (t : List XR) (xv : Fin 9 → XR) :
    quadRow (arr p t) (arrOf xv []) = ok (arr (quadTerms p) []) := by
  have h0 : rd (arr p t) 0 = ok (XR.fin (p 0)) := arrOf_rd _ t (by omega)
  have h1 : rd (arr p t) 1 = ok (XR.fin (p 1)) := arrOf_rd _ t (by omega)
  have h2 : rd (arr p t) 2 = ok (XR.fin (p 2)) := arrOf_rd _ t (by omega)
  unfold quadRow
  rw [h0, ok_bind, h1, ok_bind, h2, ok_bind, lit_two]
  simp only [XR.fin_mul]
  rfl

theorem quadLoop (junk : ℕ → XR) (P : Matrix (Fin r) (Fin 3) ℝ) (t : List XR) :
    ∃ mv xv : List XR, forN r (fun i (s : Mtx XR × List XR × List XR × List XR) => do
      let (_, mv) ← mtxGetRow (mat P t) i s.2.2.1
      let xv ← quadRow mv s.2.2.2
      let (_, x) ← mtxSetRow s.1 i xv
      let y ← wr s.2.1 i (lit 1)
      return (x, y, mv, xv)) (Mtx.uninit junk r 9, junkArr junk r, junkArr junk 3, junkArr junk 9) =
      ok (mat (quadDesign P) [], arr (fun _ : Fin r => (1 : ℝ)) [], mv, xv) := by
  obtain ⟨U, hU⟩ := uninit_eq junk r 9
  have key : (forN r (fun i (s : Mtx XR × List XR × List XR × List XR) => do
      let (_, mv) ← mtxGetRow (mat P t) i s.2.2.1
      let xv ← quadRow mv s.2.2.2
      let (_, x) ← mtxSetRow s.1 i xv
      let y ← wr s.2.1 i (lit 1)
      return (x, y, mv, xv)) (Mtx.uninit junk r 9, junkArr junk r, junkArr junk 3, junkArr junk 9)).sat
      fun s => ∃ (a : Fin 3 → XR) (b : Fin 9 → XR), s =
        (mtxOf (Matrix.of fun (k : Fin r) j => if k.val < r then XR.fin (quadDesign P k j) else U k j) [],
          (arr (fun _ : Fin r => (1 : ℝ)) []).take r ++ (junkArr junk r).drop r, arrOf a [], arrOf b []) := by
    refine forN_sat (fun i s => ∃ (a : Fin 3 → XR) (b : Fin 9 → XR), s =
        (mtxOf (Matrix.of fun (k : Fin r) j => if k.val < i then XR.fin (quadDesign P k j) else U k j) [],
          (arr (fun _ : Fin r => (1 : ℝ)) []).take i ++ (junkArr junk r).drop i, arrOf a [], arrOf b [])) ?_ ?_
    · refine ⟨fun i => junk i, fun i => junk i, ?_⟩
      rw [hU]
      simp only [Nat.not_lt_zero, if_false, List.take_zero, List.drop_zero, List.nil_append]
      rw [← junkArr_eq, ← junkArr_eq]
      rfl
    · rintro i hi s ⟨a, b, rfl⟩
      dsimp only
      rw [show mtxGetRow (mat P t) i (arrOf a []) = ok (0, arr (P ⟨i, hi⟩) []) from mtx_get_row_correct _ _ _ _ ⟨i, hi⟩, ok_bind]
      dsimp only
      rw [quadRow_eq, ok_bind, show ∀ B : Matrix (Fin r) (Fin 9) XR, mtxSetRow (mtxOf B []) i (arr (quadTerms (P ⟨i, hi⟩)) []) =
        ok (0, mtxOf (B.updateRow ⟨i, hi⟩ fun j => XR.fin (quadTerms (P ⟨i, hi⟩) j)) []) from
          fun B => mtx_set_row_correct _ _ _ _ ⟨i, hi⟩, ok_bind]
      dsimp only
      rw [wr_lt _ (by simp [arr, junkArr]; omega), ok_bind, pure_eq, sat_ok]
      refine ⟨fun j => XR.fin (P ⟨i, hi⟩ j), fun j => XR.fin (quadTerms (P ⟨i, hi⟩) j), ?_⟩
      refine Prod.ext ?_ (Prod.ext ?_ rfl)
      · dsimp only
        congr 1
        ext k j
        rw [Matrix.updateRow_apply, Matrix.of_apply, Matrix.of_apply]
        by_cases hk : k = ⟨i, hi⟩
        · rw [if_pos hk, hk, if_pos (by simp)]
          rfl
        · rw [if_neg hk]
          refine if_congr ?_ rfl rfl
          rw [Fin.ext_iff] at hk
          dsimp only at hk
          omega
      · dsimp only
        rw [XR.lit_eq]
        apply List.ext_getElem
        · simp [arr, junkArr]; omega
        · intro k h1 h2
          rw [List.getElem_set]
          simp only [arr, junkArr, List.append_nil, List.getElem_append, List.getElem_take, List.getElem_drop, List.length_take,
            List.length_ofFn, List.getElem_ofFn, List.getElem_map, List.getElem_range]
          simp only [arr, junkArr, List.length_set, List.length_append, List.length_take, List.length_drop, List.append_nil,
            List.length_ofFn, List.length_map, List.length_range] at h1
          by_cases hk : i = k
          · subst hk
            rw [if_pos rfl, dif_pos (by omega)]
            simp
          · rw [if_neg hk]
            by_cases hlt : k < i
            · rw [dif_pos (by omega), dif_pos (by omega)]
            · rw [dif_neg (by omega), dif_neg (by omega)]
              congr 1
              omega
  obtain ⟨s, hs, a, b, rfl⟩ := key
  refine ⟨arrOf a [], arrOf b [], hs.trans ?_⟩
  have h1 : (mtxOf (Matrix.of fun (k : Fin r) j => if k.val < r then XR.fin (quadDesign P k j) else U k j) []) = mat (quadDesign P) [] := by
    unfold mat
    congr 1
    ext k j
    rw [Matrix.of_apply, if_pos k.2]
    rfl
  have h2 : (arr (fun _ : Fin r => (1 : ℝ)) []).take r ++ (junkArr junk r).drop r = arr (fun _ : Fin r => (1 : ℝ)) [] := by
    rw [List.take_of_length_le (by simp [arr]), List.drop_of_length_le (by simp [junkArr]), List.append_nil]
  rw [h1, h2]

/-- A column of ones. -/
def onesCol (r : ℕ) : Matrix (Fin r) (Fin 1) ℝ := colMat fun _ => 1

theorem colMat_one : (⟨r, 1, arr (fun _ : Fin r => (1 : ℝ)) []⟩ : Mtx XR) = mat (onesCol r) [] := by
  rw [show mat (onesCol r) [] = mtxOf ((onesCol r).map XR.fin) [] from rfl]
  unfold mtxOf arr
  congr 1
  apply List.ext_getElem
  · simp
  · intro i h1 h2
    simp [onesCol, colMat]

/-- The fit in terms of the matrix that `zsl_mtx_inv` delivers. -/
theorem staQuadFit_eq (junk : ℕ → XR) (P : Matrix (Fin r) (Fin 3) ℝ) (b : Fin 9 → XR) (t v : List XR) (hr : 1 ≤ r) (rc : ℤ)
    (C : Matrix (Fin 9) (Fin 9) ℝ)
    (hinv : mtxInv junk (mat ((quadDesign P).transpose * quadDesign P) []) (Mtx.uninit junk 9 9) = ok (rc, mat C [])) :
    staQuadFit junk (mat P t) (vecOf b v) = ok (0, vec (fun j => (C * (quadDesign P).transpose * onesCol r) j 0) v) := by
  obtain ⟨U1, hU1⟩ := uninit_eq junk 9 r
  obtain ⟨U2, hU2⟩ := uninit_eq junk 9 9
  obtain ⟨U3, hU3⟩ := uninit_eq junk 9 1
  obtain ⟨mv, xv, hloop⟩ := quadLoop junk P t
  rw [staQuadFit, if_neg (by simp), if_neg (by simp; omega)]
  simp only [mat_rows]
  refine Eq.trans (congrArg (fun x => x >>= _) hloop) ?_
  rw [ok_bind]
  dsimp only
  rw [hU1, mtx_trans_real _ _ _ _ _ (by omega), ok_bind]
  dsimp only
  rw [hU2] at hinv ⊢
  rw [mtx_mult_correct, ok_bind]
  dsimp only
  rw [hinv, ok_bind]
  dsimp only
  rw [mtx_mult_correct, ok_bind]
  dsimp only
  rw [colMat_one, hU3, mtx_mult_correct, ok_bind]
  dsimp only
  rw [vecFromArr_mat, ok_bind]
  rfl

theorem quad_best (P : Matrix (Fin r) (Fin 3) ℝ) (C : Matrix (Fin 9) (Fin 9) ℝ) (hC : (quadDesign P).transpose * quadDesign P * C = 1) :
    (∀ c', quadMiss (fun j => (C * (quadDesign P).transpose * onesCol r) j 0) P ≤ quadMiss c' P) ∧
      ∀ c, (∀ i, quadric c (P i) = 1) → (fun j => (C * (quadDesign P).transpose * onesCol r) j 0) = c := by
  constructor
  · intro c'
    rw [quadMiss_eq, quadMiss_eq]
    refine normal_eq_min 1 (fun _ => zero_le_one) _ _ _ _ fun j => ?_
    have h := congrFun (normal_eq_of_inv 1 (quadDesign P) 1 C (by rw [Matrix.mul_one]; exact hC)) j
    rw [Matrix.mul_one] at h
    simp only [Pi.one_apply, one_mul]
    exact h
  · intro c hc
    have h1 : (1 : Fin r → ℝ) = (quadDesign P).mulVec c := by
      funext i
      rw [quadDesign_mulVec, hc i]
      rfl
    have hb : (fun j => (C * (quadDesign P).transpose * onesCol r) j 0) = (C * (quadDesign P).transpose).mulVec 1 := by
      funext j
      rw [Matrix.mul_apply]
      rfl
    rw [hb, h1, Matrix.mulVec_mulVec, Matrix.mul_assoc, mul_eq_one_comm.1 hC, Matrix.one_mulVec]

/-- C108, part: whenever the inverse computed inside is exact (see C26), no quadric misses the points by less than the one stored, and points
that lie on a quadric give back that quadric. Missing: points for which `zsl_mtx_inv` is not exact. -/
theorem sta_quad_fit_partial (junk : ℕ → XR) (P : Matrix (Fin r) (Fin 3) ℝ) (b : Fin 9 → XR) (t v : List XR) (hr : 1 ≤ r) (rc : ℤ)
    (C : Matrix (Fin 9) (Fin 9) ℝ)
    (hinv : mtxInv junk (mat ((quadDesign P).transpose * quadDesign P) []) (Mtx.uninit junk 9 9) = ok (rc, mat C []))
    (hC : (quadDesign P).transpose * quadDesign P * C = 1) :
    ∃ c : Fin 9 → ℝ, staQuadFit junk (mat P t) (vecOf b v) = ok (0, vec c v) ∧ (∀ c', quadMiss c P ≤ quadMiss c' P) ∧
      ∀ c', (∀ i, quadric c' (P i) = 1) → c = c' :=
  ⟨_, staQuadFit_eq junk P b t v hr rc C hinv, quad_best P C hC⟩

/-- The nine terms of a point with integer coordinates, one row for each point. -/
def quadDesignZ (P : Matrix (Fin r) (Fin 3) ℤ) : Matrix (Fin r) (Fin 9) ℤ :=
  Matrix.of fun i => ![P i 0 * P i 0, P i 1 * P i 1, P i 2 * P i 2, 2 * P i 0 * P i 1, 2 * P i 0 * P i 2, 2 * P i 1 * P i 2,
        2 * P i 0, 2 * P i 1, 2 * P i 2]

theorem quadDesignZ_cast (P : Matrix (Fin r) (Fin 3) ℤ) :
    quadDesign (P.map (Int.cast : ℤ → ℝ)) = (quadDesignZ P).map (Int.cast : ℤ → ℝ) := by
  ext i j
  fin_cases j <;> simp [quadDesign, quadTerms, quadDesignZ]

theorem mtxInv_uninit_eq (junk : ℕ → XR) {n : ℕ} (A B : Matrix (Fin n) (Fin n) ℝ) (hn : n ≠ 0) (h3 : n ≠ 3) :
    mtxInv junk (mat A []) (Mtx.uninit junk n n) = mtxInv junk (mat A []) (mat B []) := by
  obtain ⟨U, hU⟩ := uninit_eq junk n n
  rw [hU]
  exact mtxInv_out junk A [] [] U _ hn h3

/-- C108, part: for points with integer coordinates whose normal matrix has nonzero leading minors of at most a million nothing has to be
assumed about the inverse. -/
theorem sta_quad_fit_integer (junk : ℕ → XR) (P : Matrix (Fin r) (Fin 3) ℤ) (b : Fin 9 → XR) (t v : List XR) (hr : 1 ≤ r)
    (hm : ∀ k (hk : k ≤ 9), (((quadDesignZ P).transpose * quadDesignZ P).submatrix (Fin.castLE hk) (Fin.castLE hk)).det ≠ 0 ∧
      |(((quadDesignZ P).transpose * quadDesignZ P).submatrix (Fin.castLE hk) (Fin.castLE hk)).det| ≤ 1000000) :
    ∃ c : Fin 9 → ℝ, staQuadFit junk (mat (P.map Int.cast) t) (vecOf b v) = ok (0, vec c v) ∧
      (∀ c', quadMiss c (P.map Int.cast) ≤ quadMiss c' (P.map Int.cast)) ∧
      ∀ c', (∀ i, quadric c' (P.map Int.cast i) = 1) → c = c' := by
  obtain ⟨C, h1, h2, -⟩ := mtx_inv_minors_partial junk ((quadDesignZ P).transpose * quadDesignZ P) 0 [] [] (by omega) hm
  have hcast : ((quadDesignZ P).transpose * quadDesignZ P).map (Int.cast : ℤ → ℝ) =
      (quadDesign (P.map Int.cast)).transpose * quadDesign (P.map Int.cast) := by
    rw [quadDesignZ_cast]
    ext i j
    simp [Matrix.mul_apply]
  rw [hcast] at h1 h2
  rw [← mtxInv_uninit_eq _ _ _ (by omega) (by omega)] at h1
  exact sta_quad_fit_partial junk _ b t v hr 0 C h1 h2

/-- C108: points on two quadrics, among them every set of fewer than nine points, are accepted; what is stored is the sum of the terms of the
points. -/
theorem sta_quad_fit_singular (junk : ℕ → XR) (P : Matrix (Fin r) (Fin 3) ℝ) (b : Fin 9 → XR) (t v : List XR) (hr : 1 ≤ r)
    (hdet : ((quadDesign P).transpose * quadDesign P).det = 0) :
    staQuadFit junk (mat P t) (vecOf b v) = ok (0, vec (fun j => ∑ i, quadTerms (P i) j) v) := by
  have h := mtx_inv_singular junk _ 0 [] [] (by omega) hdet
  rw [← mtxInv_uninit_eq _ _ _ (by omega) (by omega)] at h
  rw [staQuadFit_eq junk P b t v hr 0 1 h, Matrix.one_mul]
  refine congrArg (fun f => ok ((0 : ℤ), vec f v)) (funext fun j => ?_)
  rw [Matrix.mul_apply]
  refine Finset.sum_congr rfl fun i _ => ?_
  simp [quadDesign, onesCol, colMat]

/-- C108: fewer than nine points do not determine a quadric. -/
theorem quad_few (P : Matrix (Fin r) (Fin 3) ℝ) (h : r < 9) : ((quadDesign P).transpose * quadDesign P).det = 0 := by
  by_contra hne
  have hu : IsUnit ((quadDesign P).transpose * quadDesign P) := (Matrix.isUnit_iff_isUnit_det _).2 (isUnit_iff_ne_zero.2 hne)
  have h9 := Matrix.rank_of_isUnit _ hu
  have hle := (Matrix.rank_mul_le_right (quadDesign P).transpose (quadDesign P)).trans (Matrix.rank_le_height (quadDesign P))
  simp at h9
  omega

/-- C108, negation: a single point is accepted, and the quadric stored does not pass through it. -/
theorem sta_quad_fit_one_point (junk : ℕ → XR) (b : Fin 9 → XR) (v : List XR) :
    ∃ c : Fin 9 → ℝ, staQuadFit junk (mat (Matrix.of fun _ : Fin 1 => ![1, 0, 0]) []) (vecOf b v) = ok (0, vec c v) ∧
      quadric c ![1, 0, 0] = 5 ∧ quadric ![1, 0, 0, 0, 0, 0, 0, 0, 0] ![1, 0, 0] = 1 := by
  refine ⟨_, sta_quad_fit_singular junk _ b [] v le_rfl (quad_few _ (by omega)), ?_, ?_⟩
  · simp [quadric, quadTerms]
    norm_num
  · simp [quadric]

/-- C108: data that are not triples and outputs of another length are refused without writing. -/
theorem sta_quad_fit_rejects {R : Type} [CReal R] (junk : ℕ → R) (m : Mtx R) (b : Vec R) (h : m.cols ≠ 3 ∨ b.sz ≠ 9) :
    staQuadFit junk m b = ok (-EINVAL, b) := by
  rw [staQuadFit, if_pos h]

/-- C108: no points at all are not refused, although arrays of no elements are then declared. -/
theorem sta_quad_fit_empty {R : Type} [CReal R] (junk : ℕ → R) (m : Mtx R) (b : Vec R) (h : m.cols = 3) (hb : b.sz = 9) (h0 : m.rows = 0) :
    staQuadFit junk m b = ub := by
  rw [staQuadFit, if_neg (by omega), if_pos h0]

/-! ## A case that meets the hypotheses -/

/-- Leading minors from a triangular factorisation. -/
theorem minors_of_lu {n : ℕ} (A : Matrix (Fin n) (Fin n) ℤ) (L U : Matrix (Fin n) (Fin n) ℚ) (hA : A.map (Int.cast : ℤ → ℚ) = L * U)
    (hL : ∀ i j, i < j → L i j = 0) (hL1 : ∀ i, L i i = 1) (hU : ∀ i j, j < i → U i j = 0) (k : ℕ) (hk : k ≤ n) :
    (((A.submatrix (Fin.castLE hk) (Fin.castLE hk)).det : ℤ) : ℚ) = ∏ i : Fin k, U (Fin.castLE hk i) (Fin.castLE hk i) := by
  have hdet : (((A.submatrix (Fin.castLE hk) (Fin.castLE hk)).det : ℤ) : ℚ) =
      ((A.map (Int.cast : ℤ → ℚ)).submatrix (Fin.castLE hk) (Fin.castLE hk)).det := by
    have := (Int.castRingHom ℚ).map_det (A.submatrix (Fin.castLE hk) (Fin.castLE hk))
    exact this
  have hmul : (L * U).submatrix (Fin.castLE hk) (Fin.castLE hk) =
      L.submatrix (Fin.castLE hk) (Fin.castLE hk) * U.submatrix (Fin.castLE hk) (Fin.castLE hk) := by
    ext i j
    simp only [Matrix.submatrix_apply, Matrix.mul_apply]
    symm
    have himg : ∑ x : Fin k, L (Fin.castLE hk i) (Fin.castLE hk x) * U (Fin.castLE hk x) (Fin.castLE hk j) =
        ∑ y ∈ Finset.univ.map (Fin.castLEEmb hk), L (Fin.castLE hk i) y * U y (Fin.castLE hk j) := by
      rw [Finset.sum_map]
      rfl
    rw [himg]
    refine Finset.sum_subset (Finset.subset_univ _) fun y _ hy => ?_
    have hky : k ≤ y.val := by
      by_contra hlt
      apply hy
      rw [Finset.mem_map]
      exact ⟨⟨y.val, by omega⟩, Finset.mem_univ _, rfl⟩
    rw [hL _ _ (by rw [Fin.lt_def]; simp; omega), zero_mul]
  rw [hdet, hA, hmul, Matrix.det_mul, Matrix.det_of_isLowerTriangular (L.submatrix _ _), Matrix.det_of_isUpperTriangular (M := U.submatrix _ _)]
  · have h1 : ∏ i, L.submatrix (Fin.castLE hk) (Fin.castLE hk) i i = 1 := Finset.prod_eq_one fun i _ => hL1 _
    rw [h1, one_mul]
    rfl
  · intro i j hij
    exact hU _ _ hij
  · intro i j hij
    exact hL _ _ hij

/-- Nine points: six on the axes and three on the diagonals between them. -/
def ninePts : Matrix (Fin 9) (Fin 3) ℤ :=
  !![1, 0, 0; -1, 0, 0; 0, 1, 0; 0, -1, 0; 0, 0, 1; 0, 0, -1; 1, 1, 0; 1, 0, 1; 0, 1, 1]

def nineL : Matrix (Fin 9) (Fin 9) ℚ :=
  !![1, 0, 0, 0, 0, 0, 0, 0, 0; 1/4, 1, 0, 0, 0, 0, 0, 0, 0; 1/4, 1/5, 1, 0, 0, 0, 0, 0, 0; 1/2, 2/5, -2/9, 1, 0, 0, 0, 0, 0;
    1/2, -2/15, 4/9, -1/5, 1, 0, 0, 0, 0; 0, 8/15, 4/9, -1/5, -1/4, 1, 0, 0, 0; 1, 4/15, 2/9, 4/5, 1, 0, 1, 0, 0;
    1/2, 14/15, 2/9, 4/5, -1/4, 1, 0, 1, 0; 1/2, 2/5, 8/9, -2/5, 3/4, 1, 0, 0, 1]

def nineU : Matrix (Fin 9) (Fin 9) ℚ :=
  !![4, 1, 1, 2, 2, 0, 4, 2, 2; 0, 15/4, 3/4, 3/2, -1/2, 2, 1, 7/2, 3/2; 0, 0, 18/5, -4/5, 8/5, 8/5, 4/5, 4/5, 16/5;
    0, 0, 0, 20/9, -4/9, -4/9, 16/9, 16/9, -8/9; 0, 0, 0, 0, 32/15, -8/15, 32/15, -8/15, 8/5; 0, 0, 0, 0, 0, 2, 0, 2, 2;
    0, 0, 0, 0, 0, 0, 8, 0, 0; 0, 0, 0, 0, 0, 0, 0, 8, 0; 0, 0, 0, 0, 0, 0, 0, 0, 8]

theorem nine_lu : ((quadDesignZ ninePts).transpose * quadDesignZ ninePts).map (Int.cast : ℤ → ℚ) = nineL * nineU := by
  decide +kernel

theorem nine_low (i j : Fin 9) : i < j → nineL i j = 0 := by
  have : ∀ x : Fin 9 × Fin 9, ¬ x.1.val < x.2.val ∨ nineL x.1 x.2 = 0 := by decide +kernel
  exact fun h => (this (i, j)).resolve_left (not_not.2 h)

theorem nine_one : ∀ i, nineL i i = 1 := by decide +kernel

theorem nine_up (i j : Fin 9) : j < i → nineU i j = 0 := by
  have : ∀ x : Fin 9 × Fin 9, ¬ x.2.val < x.1.val ∨ nineU x.1 x.2 = 0 := by decide +kernel
  exact fun h => (this (i, j)).resolve_left (not_not.2 h)

theorem nine_pivots : ∀ k : Fin 10, 0 < ∏ i : Fin k.val, nineU (Fin.castLE (Nat.le_of_lt_succ k.2) i) (Fin.castLE (Nat.le_of_lt_succ k.2) i) ∧
      ∏ i : Fin k.val, nineU (Fin.castLE (Nat.le_of_lt_succ k.2) i) (Fin.castLE (Nat.le_of_lt_succ k.2) i) ≤ 1000000 := by decide +kernel

theorem nine_minors (k : ℕ) (hk : k ≤ 9) :
    (((quadDesignZ ninePts).transpose * quadDesignZ ninePts).submatrix (Fin.castLE hk) (Fin.castLE hk)).det ≠ 0 ∧
      |(((quadDesignZ ninePts).transpose * quadDesignZ ninePts).submatrix (Fin.castLE hk) (Fin.castLE hk)).det| ≤ 1000000 := by
  have h := minors_of_lu _ nineL nineU nine_lu nine_low nine_one nine_up k hk
  obtain ⟨h1, h2⟩ := nine_pivots ⟨k, by omega⟩
  dsimp only at h1 h2
  rw [← h] at h1 h2
  have h1' : 0 < (((quadDesignZ ninePts).transpose * quadDesignZ ninePts).submatrix (Fin.castLE hk) (Fin.castLE hk)).det := by exact_mod_cast h1
  refine ⟨h1'.ne', ?_⟩
  rw [abs_of_pos h1']
  exact_mod_cast h2

/-- Non-vacuity: fitting the nine points. -/
example (junk : ℕ → XR) : ∃ c : Fin 9 → ℝ,
    staQuadFit junk (mat (ninePts.map Int.cast) []) (vecOf (fun _ : Fin 9 => XR.nan) []) = ok (0, vec c []) ∧
      (∀ c', quadMiss c (ninePts.map Int.cast) ≤ quadMiss c' (ninePts.map Int.cast)) ∧
      ∀ c', (∀ i, quadric c' (ninePts.map Int.cast i) = 1) → c = c' :=
  sta_quad_fit_integer junk ninePts _ [] [] (by omega) nine_minors

end Verif
