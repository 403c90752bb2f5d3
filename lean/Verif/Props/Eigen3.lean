import Verif.Props.Eigen2

/-!
# Eigenvectors of diagonal and of diagonalisable matrices; the overflow (C117, C119)
-/

set_option linter.unusedSectionVars false

namespace Verif

open Out Matrix

variable {n : ℕ}

theorem noTiny_diagonal (e : Fin n → ℝ) (he : ∀ i, e i = 0 ∨ 1 / 1000000 ≤ |e i|) : NoTiny (Matrix.diagonal e) := by
  have hr : ∀ k M, Reach (Matrix.diagonal e) k M → M = diagStep e k := by
    intro k M h
    induction h with
    | start => exact (diagStep_zero e).symm
    | step k M Q _ hQ ih =>
      subst ih
      exact diagStep_succ e k Q hQ
  intro k M h q
  rw [hr _ _ h]
  by_cases hqk : q = k
  · subst hqk
    simpa [diagStep] using he q
  · left
    rw [diagStep, Matrix.diagonal_apply_ne _ hqk]

/-- C119. If moreover the values `k` are separated and the matrix can be diagonalised with them, the function returns 0 and stores an
invertible matrix `V` with `A V = V diag(lam)`; with `orthonormal` set and a symmetric matrix, `V` is orthogonal. -/
theorem mtx_eigenvectors_complete (fuel : ℕ) (junk : ℕ → XR) (A : Matrix (Fin n) (Fin n) ℝ) (B : Matrix (Fin n) (Fin n) XR) (t u : List XR)
    (iter : ℕ) (orth : Bool) (hn : 0 < n) (rc : Int) (k : Fin n → ℝ)
    (heig : mtxEigenvalues fuel junk (mat A t) (Vec.uninit junk n) iter = ok (rc, vec k []))
    (hA : ∀ i, NoTiny (A - k i • 1)) (hz : ∀ i, k i = 0 ∨ 1 / 1000000 ≤ |k i|) (hsep : ∀ i j, k j = k i ∨ 1 / 1000000 ≤ |k j - k i|)
    (hspan : ∀ x, x ∈ Submodule.span ℝ {x | ∃ i, A *ᵥ x = k i • x}) :
    ∃ (lam : Fin n → ℝ) (V : Matrix (Fin n) (Fin n) ℝ),
      mtxEigenvectors fuel junk (mat A t) (mtxOf B u) iter orth = ok (0, mat V u) ∧
      A * V = V * Matrix.diagonal lam ∧ IsUnit V ∧ (∀ j, ∃ i, lam j = k i) ∧
      (orth = true → A.transpose = A → V.transpose * V = 1) ∧
      (∀ j j', j < j' → lam j ≠ lam j' → lam j ≠ 0 ∧ (lam j' = 0 ∨ ∃ i, k i = lam j ∧ ∀ i', k i' = lam j' → i < i')) := by
  have h0 : (∃ i, |k i| < 1 / 1000000) → NoTiny A := by
    rintro ⟨i, hi⟩
    have := hA i
    rwa [(hz i).resolve_right (not_le.2 hi), zero_smul, sub_zero] at this
  obtain ⟨b, lam, V, hb, hres, hcol, hind, hlam, hcomp, horth, hord⟩ :=
    mtx_eigenvectors_correct fuel junk A B t u iter orth hn rc k heig hA h0
  have hbn : b = n := by
    refine le_antisymm hb ?_
    have htop : Submodule.span ℝ (Set.range V.col) = ⊤ := by
      rw [eq_top_iff]
      intro x _
      refine Submodule.span_le.2 ?_ (hspan x)
      rintro y ⟨i, hi⟩
      refine Submodule.span_mono ?_ (hcomp i (hz i) (hsep i) y hi)
      rintro v ⟨j, rfl, _⟩
      exact ⟨j, rfl⟩
    have h1 := finrank_range_le_card (R := ℝ) V.col
    rw [Set.finrank, htop, finrank_top] at h1
    simpa using h1
  subst hbn
  have hdrop : (mtxOf B u).data.drop (b * b) = u := by
    rw [mtxOf_eq, mkM_data]
    simp [mkD]
  rw [if_pos rfl, hdrop] at hres
  have hlamk : ∀ j, ∃ i, lam j = k i := by
    intro j
    by_contra hne
    push Not at hne
    obtain ⟨i, hi⟩ := hlam j
    -- the eigenvectors of the values `k` already span, so there is no room for another eigenvalue
    have hmem : V.col j ∈ Submodule.span ℝ {v | ∃ j', v = V.col j' ∧ ∃ i, lam j' = k i} := by
      refine Submodule.span_le.2 ?_ (hspan (V.col j))
      rintro y ⟨i, hi⟩
      refine Submodule.span_mono ?_ (hcomp i (hz i) (hsep i) y hi)
      rintro v ⟨j', rfl, h⟩
      exact ⟨j', rfl, i, h⟩
    have hnot := hind.notMem_span_image (s := {j' | ∃ i, lam j' = k i}) (x := j) (by
      rintro ⟨i, hi⟩
      exact hne i hi)
    refine hnot (Submodule.span_mono ?_ hmem)
    rintro v ⟨j', rfl, h⟩
    exact ⟨j', h, rfl⟩
  refine ⟨lam, V, hres, ?_, ?_, hlamk, ?_, hord⟩
  · ext i j
    have := congrFun (hcol j) i
    rw [Matrix.mul_diagonal, Matrix.mul_apply]
    simpa [Matrix.mulVec, dotProduct, mul_comm] using this
  · rw [← Matrix.linearIndependent_cols_iff_isUnit]
    exact hind
  · intro ho hs
    ext i j
    rw [Matrix.mul_apply, Matrix.one_apply]
    change (V.col i ⬝ᵥ V.col j) = _
    by_cases hij : lam i = lam j
    · exact horth ho i j hij
    · rw [if_neg (fun h => hij (by rw [h]))]
      have h1 : (A *ᵥ V.col i) ⬝ᵥ V.col j = V.col i ⬝ᵥ (A *ᵥ V.col j) := by
        rw [dotProduct_mulVec, ← mulVec_transpose, hs]
      rw [hcol, hcol, smul_dotProduct, dotProduct_smul, smul_eq_mul, smul_eq_mul] at h1
      have h2 : (lam i - lam j) * (V.col i ⬝ᵥ V.col j) = 0 := by linarith
      exact (mul_eq_zero.1 h2).resolve_left (sub_ne_zero.2 hij)

/-- C119. For a diagonal matrix with separated entries the function returns 0 and stores an invertible matrix of eigenvectors, orthogonal if
asked for, provided the uninitialised locals of the balancing step hold zero. -/
theorem mtx_eigenvectors_diagonal (junk : ℕ → XR) (d : Fin n → ℝ) (B : Matrix (Fin n) (Fin n) XR) (t u : List XR) (iter : ℕ) (orth : Bool)
    (hn : 0 < n) (hsz : 2 * n < SIZE_MOD) (h0 : junk 0 = XR.fin 0) (h1 : junk 1 = XR.fin 0)
    (hz : ∀ i, d i = 0 ∨ 1 / 1000000 ≤ |d i|) (hsep : ∀ i j, d j = d i ∨ 1 / 1000000 ≤ |d j - d i|) :
    ∃ F, ∀ fuel, F ≤ fuel → ∃ (lam : Fin n → ℝ) (V : Matrix (Fin n) (Fin n) ℝ),
      mtxEigenvectors fuel junk (mat (Matrix.diagonal d) t) (mtxOf B u) iter orth = ok (0, mat V u) ∧
      Matrix.diagonal d * V = V * Matrix.diagonal lam ∧ IsUnit V ∧ (∀ j, ∃ i, lam j = d i) ∧
      (orth = true → V.transpose * V = 1) ∧
      (∀ j j', j < j' → lam j ≠ lam j' → lam j ≠ 0 ∧ (lam j' = 0 ∨ ∃ i, d i = lam j ∧ ∀ i', d i' = lam j' → i < i')) := by
  obtain ⟨F, hF⟩ := mtx_eigenvalues_diagonal junk d (fun i : Fin n => junk i) t [] iter hn hsz h0 h1
  refine ⟨F, fun fuel hf => ?_⟩
  have heig := hF fuel hf
  rw [← vecUninit_eq] at heig
  obtain ⟨lam, V, h2, h3, h4, h5, h6, h7⟩ := mtx_eigenvectors_complete fuel junk (Matrix.diagonal d) B t u iter orth hn 0 d heig (by
    intro i
    have : Matrix.diagonal d - d i • (1 : Matrix (Fin n) (Fin n) ℝ) = Matrix.diagonal fun j => d j - d i := by
      rw [Matrix.smul_one_eq_diagonal, Matrix.diagonal_sub]
    rw [this]
    refine noTiny_diagonal _ fun j => ?_
    rcases hsep i j with h | h
    · exact Or.inl (by rw [h, sub_self])
    · exact Or.inr h) hz hsep (by
    intro x
    have hx : x = ∑ i, x i • Pi.single i (1 : ℝ) := by
      ext i
      simp [Finset.sum_apply, Pi.single_apply]
    rw [hx]
    refine Submodule.sum_mem _ fun i _ => Submodule.smul_mem _ _ (Submodule.subset_span ⟨i, ?_⟩)
    ext j
    rw [Matrix.mulVec_diagonal]
    by_cases hij : j = i
    · subst hij
      simp
    · simp [hij])
  exact ⟨lam, V, h2, h3, h4, h5, fun ho => h6 ho (Matrix.diagonal_transpose d), h7⟩

/-- Non-vacuity: a repeated eigenvalue, a zero and a negative one. -/
example (junk : ℕ → XR) (h0 : junk 0 = XR.fin 0) (h1 : junk 1 = XR.fin 0) : ∃ (fuel : ℕ) (lam : Fin 4 → ℝ) (V : Matrix (Fin 4) (Fin 4) ℝ),
    mtxEigenvectors fuel junk (mat (Matrix.diagonal ![2, 0, 2, -1]) []) (mat (0 : Matrix (Fin 4) (Fin 4) ℝ) []) 3 true = ok (0, mat V []) ∧
      Matrix.diagonal ![2, 0, 2, -1] * V = V * Matrix.diagonal lam ∧ V.transpose * V = 1 := by
  obtain ⟨F, hF⟩ := mtx_eigenvectors_diagonal junk ![2, 0, 2, -1] ((0 : Matrix (Fin 4) (Fin 4) ℝ).map XR.fin) [] [] 3 true (by norm_num)
    (by rw [SIZE_MOD_eq]; norm_num) h0 h1 (by
      intro i
      fin_cases i <;> norm_num) (by
      intro i j
      fin_cases i <;> fin_cases j <;> norm_num)
  obtain ⟨lam, V, h2, h3, -, -, h6, -⟩ := hF F le_rfl
  exact ⟨F, lam, V, h2, h3, h6 rfl⟩

/-! ### The overflow -/

theorem setCol_fits (a0 a1 a2 a3 a4 a5 a6 a7 a8 : XR) (z : Fin 3 → XR) :
    mtxSetCol ⟨3, 4, [a0, a1, a2, a3, a4, a5, a6, a7, a8]⟩ 0 (arrOf z []) = ok (0, ⟨3, 4, [z 0, a1, a2, a3, z 1, a5, a6, a7, z 2]⟩) := by
  have : arrOf z [] = [z 0, z 1, z 2] := by simp [arrOf, List.ofFn_succ]
  rw [this]
  rfl

theorem setCol_overflows (a0 a1 a2 a3 a4 a5 a6 a7 a8 : XR) (z : Fin 3 → XR) :
    mtxSetCol ⟨3, 4, [a0, a1, a2, a3, a4, a5, a6, a7, a8]⟩ 1 (arrOf z []) = ub := by
  have : arrOf z [] = [z 0, z 1, z 2] := by simp [arrOf, List.ofFn_succ]
  rw [this]
  rfl

/-- The part of the function for one eigenvalue of a diagonal matrix. -/
theorem eigenvectorsOf_diagonal (junk : ℕ → XR) (d : Fin n → ℝ) (t : List XR) (lam : ℝ)
    (N1 N2 D : Matrix (Fin n) (Fin n) XR) (evec evec2 : Mtx XR) (x : Fin n → XR) (b : ℕ) (hn : 0 < n) :
    ∃ (M1 M2 D' : Matrix (Fin n) (Fin n) XR) (y : Fin n → XR),
      eigenvectorsOf junk (mat (Matrix.diagonal d) t) false (XR.fin lam) (mtxOf N1 [], mtxOf N2 [], evec, evec2, vecOf x [], mtxOf D [], b) =
        ok (mtxOf M1 [], mtxOf M2 [], evec, evec2, vecOf y [], mtxOf D' [], b + (freeCols (diagStep (fun i => d i - lam) n)).length) := by
  unfold eigenvectorsOf
  obtain ⟨U, hU⟩ := uninit_eq junk n n
  simp only [mat_rows]
  rw [hU, id_init]
  simp only [ok_bind]
  rw [XR.fin_neg, mtx_scalar_mult_correct]
  simp only [ok_bind]
  rw [(mtx_add_sub_d_correct _ _ _ _).1]
  simp only [ok_bind]
  have hm : -lam • (1 : Matrix (Fin n) (Fin n) ℝ) + Matrix.diagonal d = Matrix.diagonal fun i => d i - lam := by
    rw [Matrix.smul_one_eq_diagonal, Matrix.diagonal_add]
    congr 1
    funext i
    ring
  rw [hm]
  obtain ⟨N, hg⟩ := mtxGaussReduc_diagonal junk (fun i => d i - lam) N1 N2 [] [] [] hn
  rw [hg]
  simp only [ok_bind]
  rw [if_neg (by simp)]
  obtain ⟨M, y, hc⟩ := collectEigen_eq (junk 0) (diagStep (fun i => d i - lam) n) [] [] [] x D b
  rw [hc]
  simp only [ok_bind, pure_eq]
  exact ⟨N, M.map XR.fin, _, y, rfl⟩

/-- Three eigenvalues in steps of less than `1e-6`. -/
noncomputable def closeDiag : Fin 3 → ℝ := ![1, 1 + 9 / 10000000, 1 + 18 / 10000000]

/-- Two values kept, two columns for each of them: four columns for a 3x3 output. -/
theorem eigenvectors_four (fuel : ℕ) (junk : ℕ → XR) (d : Fin 3 → ℝ) (t : List XR) (data : List XR) (hd : data.length = 9) (iter : ℕ) (rc : Int)
    (heig : mtxEigenvalues fuel junk (mat (Matrix.diagonal d) t) (Vec.uninit junk 3) iter = ok (rc, vec d [])) (l1 l2 : ℝ)
    (hL : distinctEigen 3 (vec d []) (vec (0 : Fin 3 → ℝ) []) = ok (⟨3, [XR.fin l1, XR.fin l2, XR.fin 0]⟩, 2))
    (hf1 : (freeCols (diagStep (fun i => d i - l1) 3)).length = 2) (hf2 : (freeCols (diagStep (fun i => d i - l2) 3)).length = 2) :
    mtxEigenvectors fuel junk (mat (Matrix.diagonal d) t) ⟨3, 3, data⟩ iter false = ub := by
  unfold mtxEigenvectors
  rw [if_neg (by simp)]
  obtain ⟨U, hU⟩ := uninit_eq junk 3 3
  simp only [mat_rows, mat_cols]
  rw [hU, mtx_init_null]
  simp only [ok_bind]
  rw [vecUninit_eq, vecInit_vec]
  simp only [ok_bind]
  rw [← vecUninit_eq, heig]
  simp only [ok_bind]
  rw [hL]
  simp only [ok_bind]
  obtain ⟨M1, M2, D1, y1, e1⟩ := eigenvectorsOf_diagonal junk d t l1 U U (Matrix.of fun (_ : Fin 3) (_ : Fin 3) => lit 0)
    (mtxOf U []) (mtxOf U []) (fun i => junk i) 0 (by norm_num)
  obtain ⟨M3, M4, D2, y2, e2⟩ := eigenvectorsOf_diagonal junk d t l2 M1 M2 D1
    (mtxOf U []) (mtxOf U []) y1 2 (by norm_num)
  rw [hf1] at e1
  rw [hf2] at e2
  have hloop : forN 2 (fun g s => do
      let og ← rd [XR.fin l1, XR.fin l2, XR.fin 0] g
      eigenvectorsOf junk (mat (Matrix.diagonal d) t) false og s)
      (mtxOf U [], mtxOf U [], mtxOf U [], mtxOf U [], Vec.uninit junk 3, mtxOf (Matrix.of fun (_ : Fin 3) (_ : Fin 3) => lit 0) [], 0) =
      ok (mtxOf M3 [], mtxOf M4 [], mtxOf U [], mtxOf U [], vecOf y2 [], mtxOf D2 [], 4) := by
    rw [forN_succ, forN_succ, forN_zero, ok_bind, rd_lt (by simp), ok_bind, vecUninit_eq]
    simp only [List.getElem_cons_zero]
    rw [e1, ok_bind, rd_lt (by simp), ok_bind]
    simp only [List.getElem_cons_zero, List.getElem_cons_succ]
    exact e2
  refine (congrArg (fun x => x >>= _) hloop).trans ?_
  rw [ok_bind]
  simp only
  obtain ⟨a0, a1, a2, a3, a4, a5, a6, a7, a8, rfl⟩ : ∃ a0 a1 a2 a3 a4 a5 a6 a7 a8, data = [a0, a1, a2, a3, a4, a5, a6, a7, a8] := by
    match data, hd with
    | [a0, a1, a2, a3, a4, a5, a6, a7, a8], _ => exact ⟨_, _, _, _, _, _, _, _, _, rfl⟩
  have hub : forN 4 (fun s (st : List XR × Mtx XR) => do
      let (_, fd) ← mtxGetCol (mtxOf D2 []) s st.1
      let (_, mev) ← mtxSetCol st.2 s fd
      return (fd, mev)) ((vecOf y2 []).data, ⟨3, 4, [a0, a1, a2, a3, a4, a5, a6, a7, a8]⟩) = ub := by
    rw [forN_succ, forN_succ, forN_succ, forN_succ, forN_zero, ok_bind]
    have c0 := mtx_get_col_correct D2 [] [] y2 0
    have c1 := mtx_get_col_correct D2 [] [] (fun i => D2 i 0) 1
    simp only
    rw [show (vecOf y2 []).data = arrOf y2 [] from rfl]
    refine (congrArg (fun x => ((((x >>= _) >>= _) >>= _) >>= _)) c0).trans ?_
    rw [ok_bind]
    simp only
    rw [setCol_fits, ok_bind]
    simp only [pure_eq, ok_bind]
    refine (congrArg (fun x => (((x >>= _) >>= _) >>= _)) c1).trans ?_
    rw [ok_bind]
    simp only
    rw [setCol_overflows]
    rfl
  refine (congrArg (fun x => x >>= _) hub).trans ?_
  rfl

/-- C117. `zsl_mtx_eigenvectors` writes behind the end of the output: for a 3x3 diagonal matrix with the eigenvalues 1, 1.0000009 and
1.0000018 it collects four columns, sets the number of columns of the 3x3 output to four and stores them. -/
theorem mtx_eigenvectors_overflow (junk : ℕ → XR) (t : List XR) (data : List XR) (hd : data.length = 9) (iter : ℕ)
    (h0 : junk 0 = XR.fin 0) (h1 : junk 1 = XR.fin 0) :
    ∃ F, ∀ fuel, F ≤ fuel → mtxEigenvectors fuel junk (mat (Matrix.diagonal closeDiag) t) ⟨3, 3, data⟩ iter false = ub := by
  obtain ⟨F, hF⟩ := mtx_eigenvalues_diagonal junk closeDiag (fun i : Fin 3 => junk i) t [] iter (by norm_num)
    (by rw [SIZE_MOD_eq]; norm_num) h0 h1
  refine ⟨F, fun fuel hf => ?_⟩
  have heig := hF fuel hf
  rw [← vecUninit_eq] at heig
  obtain ⟨L, -, hL, -, -, -, hLf⟩ := distinctEigen_spec closeDiag
  have hLv : L = [1, 1 + 18 / 10000000] := by
    rw [hLf, if_neg]
    · norm_num [firsts, closeDiag, List.ofFn_succ]
    · rintro ⟨i, hi⟩
      revert hi
      fin_cases i <;> norm_num [closeDiag]
  clear hLf
  subst hLv
  have c0 : closeDiag 0 = 1 := rfl
  have c1 : closeDiag 1 = 1 + 9 / 10000000 := rfl
  have c2 : closeDiag 2 = 1 + 18 / 10000000 := rfl
  refine eigenvectors_four fuel junk closeDiag t data hd iter 0 heig 1 (1 + 18 / 10000000) hL ?_ ?_
  · unfold freeCols diagStep
    rw [show List.finRange 3 = [0, 1, 2] from rfl]
    norm_num [List.filter_cons, Matrix.diagonal_apply, c0, c1, c2]
  · unfold freeCols diagStep
    rw [show List.finRange 3 = [0, 1, 2] from rfl]
    norm_num [List.filter_cons, Matrix.diagonal_apply, c0, c1, c2]

end Verif
