import Verif.Props.Svd2

/-!
# The order of the singular values, and the pseudo-inverse (C120, C121)
-/

set_option linter.unusedSectionVars false

namespace Verif

open Out Matrix

variable {m n : ℕ}

/-- The columns for the matrix `diag(0, 1)`: the second one belongs to the eigenvalue 0. -/
theorem zero_one_cols {V : Matrix (Fin 2) (Fin 2) ℝ} {lam : Fin 2 → ℝ} (h : Matrix.diagonal ![0, 1] * V = V * Matrix.diagonal lam) (hV : IsUnit V)
    (hl : ∀ j, ∃ i, lam j = (![0, 1] : Fin 2 → ℝ) i)
    (ho : ∀ j j', j < j' → lam j ≠ lam j' → lam j ≠ 0 ∧ (lam j' = 0 ∨ ∃ i, (![0, 1] : Fin 2 → ℝ) i = lam j ∧
      ∀ i', (![0, 1] : Fin 2 → ℝ) i' = lam j' → i < i')) : V 1 1 = 0 := by
  have hent : ∀ i j, (![0, 1] : Fin 2 → ℝ) i * V i j = V i j * lam j := by
    intro i j
    have := congrFun (congrFun h i) j
    rwa [Matrix.diagonal_mul, Matrix.mul_diagonal] at this
  have hval : ∀ j, lam j = 0 ∨ lam j = 1 := by
    intro j
    obtain ⟨i, hi⟩ := hl j
    fin_cases i
    · exact Or.inl hi
    · exact Or.inr hi
  have hdet : V.det ≠ 0 := ((Matrix.isUnit_iff_isUnit_det V).1 hV).ne_zero
  rw [Matrix.det_fin_two] at hdet
  have e00 := hent 0 0
  have e01 := hent 0 1
  have e10 := hent 1 0
  have e11 := hent 1 1
  simp only [Matrix.cons_val_zero, Matrix.cons_val_one, zero_mul, one_mul] at e00 e01 e10 e11
  rcases hval 1 with h1 | h1
  · rw [h1, mul_zero] at e11
    exact e11
  · exfalso
    rcases hval 0 with h0 | h0
    · have := ho 0 1 (by decide) (by rw [h0, h1]; norm_num)
      exact this.1 h0
    · rw [h1, mul_one] at e01
      rw [h0, mul_one] at e00
      exact hdet (by rw [← e00, ← e01]; ring)

/-- C120. The singular values are stored in the order of the eigenvalue function, the vectors with those of zero last. If a zero comes first,
as for the matrix `diag(0, 1)`, the product of the three matrices is not the input; and the first column of `u` is never written. -/
theorem mtx_svd_order (junk : ℕ → XR) (t u e v : List XR) (U0 : Matrix (Fin 2) (Fin 2) ℝ) (E0 V0 : Matrix (Fin 2) (Fin 2) XR)
    (iter : ℕ) (h0 : junk 0 = XR.fin 0) (h1 : junk 1 = XR.fin 0) :
    ∃ F, ∀ fuel, F ≤ fuel → ∃ (U E V : Matrix (Fin 2) (Fin 2) ℝ),
      mtxSvd fuel junk (mat (Matrix.diagonal ![0, 1]) t) (mat U0 u) (mtxOf E0 e) (mtxOf V0 v) iter = ok (0, mat U u, mat E e, mat V v) ∧
      (U * E * V.transpose) 1 1 = 0 ∧ (Matrix.diagonal ![0, 1] : Matrix (Fin 2) (Fin 2) ℝ) 1 1 = 1 ∧ ∀ i, U i 0 = U0 i 0 := by
  classical
  have hsz : 2 * 2 < SIZE_MOD := by
    rw [SIZE_MOD_eq]
    norm_num
  obtain ⟨X, hX⟩ := uninit_eq junk 2 2
  have hz : ∀ i, (![0, 1] : Fin 2 → ℝ) i = 0 ∨ 1 / 1000000 ≤ |(![0, 1] : Fin 2 → ℝ) i| := by
    intro i
    fin_cases i <;> norm_num
  have hsep : ∀ i j, (![0, 1] : Fin 2 → ℝ) j = (![0, 1] : Fin 2 → ℝ) i ∨ 1 / 1000000 ≤ |(![0, 1] : Fin 2 → ℝ) j - (![0, 1] : Fin 2 → ℝ) i| := by
    intro i j
    fin_cases i <;> fin_cases j <;> norm_num
  obtain ⟨F1, hF1⟩ := mtx_eigenvalues_diagonal junk ![0, 1] (fun i : Fin 2 => junk i) [] [] iter (by norm_num) hsz h0 h1
  obtain ⟨F2, hF2⟩ := mtx_eigenvectors_diagonal junk ![0, 1] V0 [] v iter true (by norm_num) hsz h0 h1 hz hsep
  obtain ⟨F3, hF3⟩ := mtx_eigenvectors_diagonal junk ![0, 1] X [] [] iter true (by norm_num) hsz h0 h1 hz hsep
  refine ⟨max F1 (max F2 F3), fun fuel hf => ?_⟩
  have heig := hF1 fuel (le_trans (le_max_left _ _) hf)
  rw [← vecUninit_eq] at heig
  obtain ⟨lam, V, hV, hVe, hVu, hVl, -, hVo⟩ := hF2 fuel (le_trans (le_trans (le_max_left _ _) (le_max_right _ _)) hf)
  obtain ⟨lam', W, hW, hWe, hWu, hWl, -, hWo⟩ := hF3 fuel (le_trans (le_trans (le_max_right _ _) (le_max_right _ _)) hf)
  rw [← hX] at hW
  have hsq : (Matrix.diagonal ![0, 1] : Matrix (Fin 2) (Fin 2) ℝ) * Matrix.diagonal ![0, 1] = Matrix.diagonal ![0, 1] := by
    rw [Matrix.diagonal_mul_diagonal]
    congr 1
    funext i
    fin_cases i <;> norm_num
  have hres := svd_run fuel junk (Matrix.diagonal ![0, 1]) t u e v (U0.map XR.fin) E0 V0 iter (by norm_num) le_rfl 0 0 0 ![0, 1] V W (by
    intro i
    fin_cases i <;> norm_num) (by rw [Matrix.diagonal_transpose, hsq]; exact heig) (by rw [Matrix.diagonal_transpose, hsq]; exact hV)
    (by rw [Matrix.diagonal_transpose, hsq]; exact hW)
  have hs0 : SigSmall (![0, 1] : Fin 2 → ℝ) 0 := by
    unfold SigSmall
    norm_num
  have hs1 : ¬SigSmall (![0, 1] : Fin 2 → ℝ) 1 := by
    unfold SigSmall
    norm_num
  have hrank : svdRank (![0, 1] : Fin 2 → ℝ) = 1 := by
    have : (Finset.univ.filter fun i => SigSmall (![0, 1] : Fin 2 → ℝ) i) = {0} := by
      ext i
      fin_cases i
      · simp [hs0]
      · simp [hs1]
    rw [svdRank, this]
    rfl
  have hV11 := zero_one_cols hVe hVu hVl hVo
  have hW11 := zero_one_cols hWe hWu hWl hWo
  set U : Matrix (Fin 2) (Fin 2) ℝ := Matrix.of fun a j => if j = 0 then U0 a 0 else W a 1 with hU
  have hUeq : svdU (Matrix.diagonal ![0, 1]) V W ![0, 1] (U0.map XR.fin) = U.map XR.fin := by
    ext a j
    rw [svdU, Matrix.of_apply, hrank]
    fin_cases j
    · simp only [Fin.zero_eta]
      rw [if_neg (by omega), svdCols, Matrix.of_apply, dif_pos (by simp), if_neg (by
        rintro ⟨_, h⟩
        exact h hs0)]
      simp [hU]
    · rw [if_pos (by simp)]
      simp [hU]
  refine ⟨U, svdSigma 2 ![0, 1], V, ?_, ?_, ?_, ?_⟩
  · rw [hUeq] at hres
    exact hres
  · rw [Matrix.mul_apply, Fin.sum_univ_two, Matrix.mul_apply, Matrix.mul_apply, Fin.sum_univ_two, Fin.sum_univ_two, Matrix.transpose_apply,
      Matrix.transpose_apply, hV11]
    simp [svdSigma]
  · simp
  · intro i
    simp [hU]

/-! ### The pseudo-inverse -/

/-- The singular values after the loop that inverts them. -/
noncomputable def pinvSigma (m : ℕ) (k : Fin n → ℝ) : Matrix (Fin m) (Fin n) XR :=
  Matrix.of fun a b => if a.val = b.val then XR.fin 1 / XR.fin (Real.sqrt (k b)) else XR.fin 0

theorem pinvInvert_eq (x0 : XR) (k : Fin n → ℝ) (t : List XR) (hnm : n ≤ m) :
    pinvInvert x0 n (mat (svdSigma m k) t) = ok (mtxOf (pinvSigma m k) t) := by
  unfold pinvInvert
  have hloop := forN_sat (n := n) (f := fun g (s : XR × Mtx XR) => do
      let (_, x) ← mtxGet s.2 g g s.1
      if CReal.lt x (lit 1e-6) || CReal.gt x (-lit 1e-6) then do
        let x := lit 1 / x
        let (_, e) ← mtxSet s.2 g g x
        return (x, e)
      else return (x, s.2)) (s := (x0, mat (svdSigma m k) t))
    (fun i s => s.2 = mtxOf (Matrix.of fun (a : Fin m) (b : Fin n) => if a.val = b.val then
      (if b.val < i then XR.fin 1 / XR.fin (Real.sqrt (k b)) else XR.fin (Real.sqrt (k b))) else XR.fin 0) t) (by
      dsimp only
      unfold mat
      congr 1
      ext a b
      simp only [Matrix.map_apply, svdSigma, Matrix.of_apply, Nat.not_lt_zero, if_false]
      split_ifs <;> rfl) (by
      rintro i hi ⟨x, M⟩ hM
      dsimp only at hM ⊢
      rw [hM]
      have hget := mtx_get_correct (Matrix.of fun (a : Fin m) (b : Fin n) => if a.val = b.val then
        (if b.val < i then XR.fin 1 / XR.fin (Real.sqrt (k b)) else XR.fin (Real.sqrt (k b))) else XR.fin 0) t x ⟨i, by omega⟩ ⟨i, hi⟩
      rw [Matrix.of_apply, if_pos rfl, if_neg (lt_irrefl _)] at hget
      dsimp only at hget
      rw [hget]
      simp only [ok_bind]
      have hc : (CReal.lt (XR.fin (Real.sqrt (k ⟨i, hi⟩))) (lit 1e-6) || CReal.gt (XR.fin (Real.sqrt (k ⟨i, hi⟩))) (-lit 1e-6)) = true := by
        rw [Bool.or_eq_true]
        right
        have : 0 ≤ Real.sqrt (k ⟨i, hi⟩) := Real.sqrt_nonneg _
        rw [XR.lit_eq, XR.fin_neg, XR.fin_gt]
        have : ((1e-6 : ℚ) : ℝ) = 1 / 1000000 := by norm_num
        rw [this]
        linarith
      rw [if_pos hc]
      have hset := mtx_set_correct (Matrix.of fun (a : Fin m) (b : Fin n) => if a.val = b.val then
        (if b.val < i then XR.fin 1 / XR.fin (Real.sqrt (k b)) else XR.fin (Real.sqrt (k b))) else XR.fin 0) t
        (lit 1 / XR.fin (Real.sqrt (k ⟨i, hi⟩))) ⟨i, by omega⟩ ⟨i, hi⟩
      dsimp only at hset
      rw [hset]
      simp only [ok_bind, pure_eq, sat_ok]
      congr 1
      ext a b
      simp only [Matrix.of_apply, Fin.ext_iff]
      by_cases hab : a.val = i ∧ b.val = i
      · rw [if_pos hab, if_pos (by omega), if_pos (by omega), XR.lit_eq, Rat.cast_one]
        congr 4
        exact Fin.ext hab.2.symm
      · rw [if_neg hab]
        by_cases h2 : a.val = b.val
        · rw [if_pos h2, if_pos h2]
          exact if_congr ⟨fun h => by omega, fun h => by omega⟩ rfl rfl
        · rw [if_neg h2, if_neg h2])
  obtain ⟨⟨x, M⟩, hst, hM⟩ := hloop
  dsimp only at hM
  subst hM
  rw [hst]
  simp only [ok_bind, pure_eq]
  congr 2
  ext a b
  simp [pinvSigma]

/-- The function after the decomposition. -/
theorem pinv_run (fuel : ℕ) (junk : ℕ → XR) (A : Matrix (Fin m) (Fin n) ℝ) (t p : List XR) (P0 : Matrix (Fin n) (Fin m) XR) (iter : ℕ)
    (hn : 0 < n) (hnm : n ≤ m) (k : Fin n → ℝ) (U : Matrix (Fin m) (Fin m) ℝ) (V : Matrix (Fin n) (Fin n) ℝ)
    (hsvd : mtxSvd fuel junk (mat A t) (Mtx.uninit junk m m) (Mtx.uninit junk m n) (Mtx.uninit junk n n) iter =
      ok (0, mat U [], mat (svdSigma m k) [], mat V [])) :
    ∃ X : Matrix (Fin n) (Fin m) XR, mtxPinv fuel junk (mat A t) (mtxOf P0 p) iter = (do
      let (_, pas) ← mtxMult (mat V []) (mtxOf (pinvSigma m k).transpose []) (mtxOf X [])
      let (_, pinv) ← mtxMult pas (mat U.transpose []) (mtxOf P0 p)
      return (0, pinv)) := by
  have hm : 0 < m := by omega
  obtain ⟨X, hX⟩ := uninit_eq junk n m
  obtain ⟨Y, hY⟩ := uninit_eq junk m m
  refine ⟨X, ?_⟩
  unfold mtxPinv
  rw [if_neg (by simp; omega)]
  have hmin : (if (mat A t).rows ≤ (mat A t).cols then (mat A t).rows else (mat A t).cols) = n := by
    have h1 : (mat A t).rows = m := rfl
    have h2 : (mat A t).cols = n := rfl
    split_ifs with h
    · omega
    · rfl
  simp only [hmin]
  simp only [mat_rows, mat_cols]
  rw [hsvd]
  simp only [ok_bind]
  have htr : mtxTrans junk (mat U []) (mtxOf Y []) = ok (0, mat U.transpose []) := mtx_trans_correct junk (U.map XR.fin) Y [] [] hm
  rw [hY, htr]
  simp only [ok_bind]
  rw [pinvInvert_eq _ _ _ hnm]
  simp only [ok_bind]
  rw [hX, mtx_trans_correct junk _ X [] [] hn]
  simp only [ok_bind]

/-- C121. The pseudo-inverse of a matrix of full column rank, under the assumptions of the decomposition: `(Aᵀ A)⁻¹ Aᵀ`. -/
theorem mtx_pinv_correct_partial (fuel : ℕ) (junk : ℕ → XR) (A : Matrix (Fin m) (Fin n) ℝ) (t p : List XR) (P0 : Matrix (Fin n) (Fin m) XR)
    (iter : ℕ) (hn : 0 < n) (hnm : n ≤ m) (k : Fin n → ℝ) (l : Fin m → ℝ) (hk : Spectrum fuel junk (A.transpose * A) iter k)
    (hl : Spectrum fuel junk (A * A.transpose) iter l) (hfull : ∀ i, k i ≠ 0) :
    ∃ P : Matrix (Fin n) (Fin m) ℝ, mtxPinv fuel junk (mat A t) (mtxOf P0 p) iter = ok (0, mat P p) ∧
      P * A = 1 ∧ (A * P).transpose = A * P ∧ P = (A.transpose * A)⁻¹ * A.transpose := by
  obtain ⟨U0, hU0⟩ := uninit_eq junk m m
  obtain ⟨E0, hE0⟩ := uninit_eq junk m n
  obtain ⟨V0, hV0⟩ := uninit_eq junk n n
  obtain ⟨U, E, V, hsvd, hU, hV, hE, hA⟩ := mtx_svd_correct fuel junk A t [] [] [] U0 E0 V0 iter hn hnm k l hk hl
  have hEs : E = svdSigma m k := by
    ext a b
    rw [hE]
    rfl
  rw [← hU0, ← hE0, ← hV0, hEs] at hsvd
  obtain ⟨X, hrun⟩ := pinv_run fuel junk A t p P0 iter hn hnm k U V hsvd
  have hs : ∀ b, Real.sqrt (k b) ≠ 0 := fun b => by
    rw [Real.sqrt_ne_zero (hk.nonneg b)]
    exact hfull b
  set D : Matrix (Fin m) (Fin n) ℝ := rectDiag m fun b => 1 / Real.sqrt (k b) with hD
  have hDX : pinvSigma m k = D.map XR.fin := by
    ext a b
    rw [pinvSigma, Matrix.of_apply, Matrix.map_apply, hD, rectDiag, Matrix.of_apply]
    split_ifs
    · rw [XR.fin_div (hs b)]
    · rfl
  rw [hDX] at hrun
  have h1 : mtxMult (mat V []) (mtxOf (D.map XR.fin).transpose []) (mtxOf X []) = ok (0, mat (V * D.transpose) []) :=
    mtx_mult_correct V D.transpose X [] [] []
  rw [h1] at hrun
  simp only [ok_bind] at hrun
  rw [mtx_mult_correct] at hrun
  simp only [ok_bind, pure_eq] at hrun
  have hDE : D.transpose * E = 1 := by
    rw [hEs]
    ext i j
    rw [Matrix.mul_apply, Finset.sum_eq_single (⟨i.val, by omega⟩ : Fin m)]
    · rw [Matrix.transpose_apply, hD, rectDiag, Matrix.of_apply, svdSigma, Matrix.of_apply, if_pos rfl, Matrix.one_apply]
      by_cases hij : i = j
      · subst hij
        rw [if_pos rfl, if_pos rfl, one_div_mul_cancel (hs i)]
      · rw [if_neg (fun h => hij (Fin.ext h)), if_neg hij, mul_zero]
    · intro b _ hb
      rw [Matrix.transpose_apply, hD, rectDiag, Matrix.of_apply, if_neg (fun h => hb (Fin.ext h)), zero_mul]
    · simp
  have hED : (E * D.transpose).transpose = E * D.transpose := by
    rw [hEs]
    ext a b
    rw [Matrix.transpose_apply, Matrix.mul_apply, Matrix.mul_apply]
    refine Finset.sum_congr rfl fun j _ => ?_
    rw [Matrix.transpose_apply, Matrix.transpose_apply, hD, rectDiag, Matrix.of_apply, Matrix.of_apply, svdSigma, Matrix.of_apply, Matrix.of_apply]
    split_ifs <;> simp
  have hPA : V * D.transpose * U.transpose * A = 1 := by
    have : V * D.transpose * U.transpose * (U * E * V.transpose) = V * (D.transpose * ((U.transpose * U) * E)) * V.transpose := by
      simp only [Matrix.mul_assoc]
    rw [hA, this, hU, Matrix.one_mul, hDE, Matrix.mul_one]
    exact mul_eq_one_comm.1 hV
  have hAP : A * (V * D.transpose * U.transpose) = U * (E * D.transpose) * U.transpose := by
    have : U * E * V.transpose * (V * D.transpose * U.transpose) = U * (E * ((V.transpose * V) * D.transpose)) * U.transpose := by
      simp only [Matrix.mul_assoc]
    rw [hA, this, hV, Matrix.one_mul]
  have hsymm : (A * (V * D.transpose * U.transpose)).transpose = A * (V * D.transpose * U.transpose) := by
    rw [hAP, Matrix.transpose_mul, Matrix.transpose_mul, hED, Matrix.transpose_transpose, ← Matrix.mul_assoc U]
  refine ⟨V * D.transpose * U.transpose, hrun, hPA, hsymm, ?_⟩
  set P := V * D.transpose * U.transpose with hP
  have hAt : A.transpose = A.transpose * A * P := by
    have : (A * P * A).transpose = A.transpose * (A * P) := by
      rw [Matrix.transpose_mul, hsymm]
    rw [Matrix.mul_assoc, ← this, Matrix.mul_assoc, hPA, Matrix.mul_one]
  have hdet : IsUnit (A.transpose * A).det := by
    refine Matrix.isUnit_det_of_right_inverse (B := P * P.transpose) ?_
    rw [← Matrix.mul_assoc, ← hAt, ← Matrix.transpose_mul, hPA, Matrix.transpose_one]
  have h2 := congrArg (fun M => (A.transpose * A)⁻¹ * M) hAt
  rw [h2, ← Matrix.mul_assoc, Matrix.nonsing_inv_mul _ hdet, Matrix.one_mul]

/-- Non-vacuity: a 3x2 matrix of full column rank meets every hypothesis. -/
example (junk : ℕ → XR) (h0 : junk 0 = XR.fin 0) (h1 : junk 1 = XR.fin 0) : ∃ (fuel : ℕ) (P : Matrix (Fin 2) (Fin 3) ℝ),
    mtxPinv fuel junk (mat (rectDiag 3 ![-3, 2]) []) (mat (0 : Matrix (Fin 2) (Fin 3) ℝ) []) 5 = ok (0, mat P []) ∧
    P * rectDiag 3 ![-3, 2] = 1 := by
  obtain ⟨F, hF⟩ := spectrum_rectDiag (m := 3) junk ![-3, 2] 5 (by norm_num) (by norm_num) (by rw [SIZE_MOD_eq]; norm_num) h0 h1 (by
      intro i j hij
      revert hij
      fin_cases i <;> fin_cases j <;> (norm_num; try decide)) (by
      intro i
      fin_cases i <;> norm_num) (by
      intro i j
      fin_cases i <;> fin_cases j <;> norm_num)
  obtain ⟨hk, l, hl⟩ := hF F le_rfl
  obtain ⟨P, h2, h3, -, -⟩ := mtx_pinv_correct_partial F junk (rectDiag 3 ![-3, 2]) [] [] ((0 : Matrix (Fin 2) (Fin 3) ℝ).map XR.fin) 5
    (by norm_num) (by norm_num) _ l hk hl (by
      intro i
      fin_cases i <;> norm_num)
  exact ⟨F, P, h2, h3⟩

/-- C121. When the matrix does not have full rank, no element of the result is a finite number: the test that should leave zero singular
values alone (`x < 1e-6 || x > -1e-6`) is always true, so they are inverted. -/
theorem mtx_pinv_singular (fuel : ℕ) (junk : ℕ → XR) (A : Matrix (Fin m) (Fin n) ℝ) (t p : List XR) (P0 : Matrix (Fin n) (Fin m) XR)
    (iter : ℕ) (hn : 0 < n) (hnm : n ≤ m) (k : Fin n → ℝ) (l : Fin m → ℝ) (hk : Spectrum fuel junk (A.transpose * A) iter k)
    (hl : Spectrum fuel junk (A * A.transpose) iter l) (b : Fin n) (hb : k b = 0) :
    ∃ P : Matrix (Fin n) (Fin m) XR, mtxPinv fuel junk (mat A t) (mtxOf P0 p) iter = ok (0, mtxOf P p) ∧
      ∀ i j, NotFin (P i j) := by
  obtain ⟨U0, hU0⟩ := uninit_eq junk m m
  obtain ⟨E0, hE0⟩ := uninit_eq junk m n
  obtain ⟨V0, hV0⟩ := uninit_eq junk n n
  obtain ⟨U, E, V, hsvd, hU, hV, hE, hA⟩ := mtx_svd_correct fuel junk A t [] [] [] U0 E0 V0 iter hn hnm k l hk hl
  have hEs : E = svdSigma m k := by
    ext a b
    rw [hE]
    rfl
  rw [← hU0, ← hE0, ← hV0, hEs] at hsvd
  obtain ⟨X, hrun⟩ := pinv_run fuel junk A t p P0 iter hn hnm k U V hsvd
  unfold mat at hrun
  rw [mtxMult_gen] at hrun
  simp only [ok_bind] at hrun
  rw [mtxMult_gen] at hrun
  simp only [ok_bind, pure_eq] at hrun
  refine ⟨_, hrun, fun i j => ?_⟩
  rw [Matrix.of_apply]
  refine notFin_accSum _ m b.val (by omega) (notFin_mul_left _ ?_)
  rw [ext_lt _ i.2 (by omega : b.val < m), Matrix.of_apply]
  refine notFin_accSum _ n b.val b.2 (notFin_mul_right _ ?_)
  rw [ext_lt _ b.2 (by omega : b.val < m), Matrix.transpose_apply, pinvSigma, Matrix.of_apply, if_pos rfl]
  simp only [Fin.eta]
  rw [hb, Real.sqrt_zero]
  change NotFin (XR.div (XR.fin 1) (XR.fin 0))
  have h0 : XR.div (XR.fin 1) (XR.fin 0) = XR.infOf 1 := if_pos rfl
  rw [h0]
  exact notFin_infOf 1

/-- Non-vacuity: `diag(3, 0)`; its pseudo-inverse is `diag(1/3, 0)`, but the function returns infinities and NaNs. -/
example (junk : ℕ → XR) (h0 : junk 0 = XR.fin 0) (h1 : junk 1 = XR.fin 0) : ∃ (fuel : ℕ) (P : Matrix (Fin 2) (Fin 2) XR),
    mtxPinv fuel junk (mat (rectDiag 2 ![3, 0]) []) (mat (0 : Matrix (Fin 2) (Fin 2) ℝ) []) 5 = ok (0, mtxOf P []) ∧
    ∀ i j, NotFin (P i j) := by
  obtain ⟨F, hF⟩ := spectrum_rectDiag (m := 2) junk ![3, 0] 5 (by norm_num) (by norm_num) (by rw [SIZE_MOD_eq]; norm_num) h0 h1 (by
      intro i j hij
      revert hij
      fin_cases i <;> fin_cases j <;> (norm_num; try decide)) (by
      intro i
      fin_cases i <;> norm_num) (by
      intro i j
      fin_cases i <;> fin_cases j <;> norm_num)
  obtain ⟨hk, l, hl⟩ := hF F le_rfl
  obtain ⟨P, h2, h3⟩ := mtx_pinv_singular F junk (rectDiag 2 ![3, 0]) [] [] ((0 : Matrix (Fin 2) (Fin 2) ℝ).map XR.fin) 5
    (by norm_num) (by norm_num) _ l hk hl 1 (by norm_num)
  exact ⟨F, P, h2, h3⟩

end Verif
