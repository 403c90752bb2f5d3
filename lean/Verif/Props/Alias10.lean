import Verif.Props.Alias7

/-!
# Calls whose arguments share storage: singular values with the right factor over the matrix (C145)
-/

set_option linter.unusedSectionVars false

namespace Verif

open Out Matrix

variable {n : ℕ}

/-- The matrix `u` after `i` steps of the first loop, when the matrix that is multiplied is already the right factor. -/
noncomputable def svdOverV (V : Matrix (Fin n) (Fin n) ℝ) (k : Fin n → ℝ) (U0 : Matrix (Fin n) (Fin n) XR) (i : ℕ) :
    Matrix (Fin n) (Fin n) XR :=
  Matrix.of fun a j => if j.val < i then XR.fin ((V * V) a j / Real.sqrt (k j)) else U0 a j

/-- C145, C120. `zsl_mtx_svd(m, u, e, m, iter)`: the right factor overwrites the matrix before the left factor is computed from it. For a
square matrix of full rank the three factors stored multiply to the orthogonal matrix `V`, whatever the matrix was. -/
theorem mtx_svd_over_v (fuel : ℕ) (junk : ℕ → XR) (mem : MMem XR) (p u e iter : ℕ) (hpu : p ≠ u) (hpe : p ≠ e) (hue : u ≠ e)
    (A : Matrix (Fin n) (Fin n) ℝ) (t tu te : List XR) (U0 E0 : Matrix (Fin n) (Fin n) XR) (hn : 0 < n) (k l : Fin n → ℝ)
    (hk : Spectrum fuel junk (A.transpose * A) iter k) (hl : Spectrum fuel junk (A * A.transpose) iter l)
    (hpos : ∀ i, 1 / 1000000 ≤ k i) (hp : mem p = mat A t) (hu : mem u = mtxOf U0 tu) (he : mem e = mtxOf E0 te) :
    ∃ (mem' : MMem XR) (U E V : Matrix (Fin n) (Fin n) ℝ), mtxSvdMem fuel junk mem p u e p iter = ok (0, mem') ∧
      mem' u = mat U tu ∧ mem' e = mat E te ∧ mem' p = mat V t ∧ V.transpose * V = 1 ∧
      E = Matrix.diagonal (fun i => Real.sqrt (k i)) ∧ U * E * V.transpose = V := by
  classical
  obtain ⟨V, hV, -, hVo⟩ := spectrum_vectors hk (by rw [transpose_mul, transpose_transpose]) hn (A.map XR.fin) t
  obtain ⟨X, hX⟩ := uninit_eq junk n n
  obtain ⟨W, hW, -, -⟩ := spectrum_vectors hl (by rw [transpose_mul, transpose_transpose]) hn X []
  obtain ⟨rck, hrun⟩ := hk.run
  have hVo' : V * V.transpose = 1 := mul_eq_one_comm.1 hVo
  have hs : ∀ i, ¬SigSmall k i := fun i => by
    rw [SigSmall, not_lt]
    refine le_trans ?_ (Real.sqrt_le_sqrt (hpos i))
    rw [show (1 / 1000000 : ℝ) = (1 / 1000) ^ 2 by norm_num, Real.sqrt_sq (by norm_num)]
    norm_num
  have hs0 : ∀ i, Real.sqrt (k i) ≠ 0 := fun i => (Real.sqrt_pos.2 (by have := hpos i; linarith)).ne'
  have hEsig : svdSigma n k = Matrix.diagonal fun i => Real.sqrt (k i) := by
    ext a b
    simp only [svdSigma, Matrix.of_apply, Matrix.diagonal_apply, Fin.ext_iff]
    split_ifs with h
    · rw [Fin.ext h]
    · rfl
  set M := Function.update (Function.update mem e (mat (svdSigma n k) te)) p (mat V t) with hM
  refine ⟨Function.update M u (mtxOf (svdOverV V k U0 n) tu), Matrix.of fun a j => (V * V) a j / Real.sqrt (k j), svdSigma n k, V, ?_, ?_, ?_, ?_,
    hVo, hEsig, ?_⟩
  · unfold mtxSvdMem
    rw [hp, if_neg (by simp; omega)]
    simp only [mat_rows, mat_cols, le_refl, if_true, lt_irrefl, if_false]
    obtain ⟨Y, hY⟩ := uninit_eq junk n 1
    have htr : mtxTrans junk (mat A t) (mtxOf X []) = ok (0, mat A.transpose []) := mtx_trans_correct junk (A.map XR.fin) X t [] hn
    rw [hX, htr]
    simp only [ok_bind]
    rw [mtx_mult_correct]
    simp only [ok_bind]
    rw [mtx_mult_correct]
    simp only [ok_bind]
    rw [hrun, hW]
    simp only [ok_bind, onObj]
    rw [he, mtx_init_null]
    simp only [ok_bind, pure_eq]
    have hE := forN_eq (n := n) (f := fun g (mem : MMem XR) => do
        let a ← rd (vec k []).data g
        let (_, mem) ← (do
          let (rc, o) ← mtxSet (mem e) g g (CReal.sqrt a)
          return (rc, Function.update mem e o))
        return mem) (s := Function.update mem e (mtxOf (Matrix.of fun (_ : Fin n) (_ : Fin n) => (lit 0 : XR)) te))
      (fun i => Function.update mem e (mat (Matrix.of fun (a : Fin n) (b : Fin n) => if a.val = b.val ∧ b.val < i then Real.sqrt (k b) else 0) te)) (by
        unfold mat
        congr 2
        ext a b
        simp [XR.lit_eq]) (by
        intro i hi
        have hrd : rd (vec k []).data i = ok (XR.fin (k ⟨i, hi⟩)) := by
          rw [vec_data, rd_lt (by simpa [arr] using hi)]
          simp [arr]
        rw [hrd]
        simp only [ok_bind, Function.update_self]
        rw [show (CReal.sqrt (XR.fin (k ⟨i, hi⟩)) : XR) = XR.fin (Real.sqrt (k ⟨i, hi⟩)) from XR.fin_sqrt (hk.nonneg _)]
        have := mat_set (Matrix.of fun (a : Fin n) (b : Fin n) => if a.val = b.val ∧ b.val < i then Real.sqrt (k b) else 0) te
          (Real.sqrt (k ⟨i, hi⟩)) ⟨i, hi⟩ ⟨i, hi⟩
        dsimp only at this
        rw [this]
        simp only [ok_bind, pure_eq, Function.update_idem]
        congr 3
        ext a b
        simp only [Matrix.of_apply, Fin.ext_iff]
        by_cases h1 : a.val = i ∧ b.val = i
        · rw [if_pos h1, if_pos ⟨by omega, by omega⟩]
          congr 2
          exact Fin.ext h1.2.symm
        · rw [if_neg h1]
          exact if_congr ⟨fun h => ⟨h.1, by omega⟩, fun h => ⟨h.1, by omega⟩⟩ rfl rfl)
    simp only [pure_eq] at hE
    refine (congrArg (fun x => x >>= _) hE).trans ?_
    rw [ok_bind]
    have hEfin : (Matrix.of fun (a : Fin n) (b : Fin n) => if a.val = b.val ∧ b.val < n then Real.sqrt (k b) else 0) = svdSigma n k := by
      ext a b
      simp [svdSigma]
    have hV' : mtxEigenvectors fuel junk (mat (A.transpose * A) []) (mat A t) iter true = ok (0, mat V t) := hV
    simp only [hEfin, Function.update_of_ne hpe, hp, hV', ok_bind]
    rw [← hM]
    have hMp : ∀ x, Function.update M u x p = mat V t := fun x => by rw [Function.update_of_ne hpu, hM, Function.update_self]
    have hMe : ∀ x, Function.update M u x e = mat (svdSigma n k) te := fun x => by
      rw [Function.update_of_ne hue.symm, hM, Function.update_of_ne hpe.symm, Function.update_self]
    have hMu : M u = mtxOf U0 tu := by rw [hM, Function.update_of_ne hpu.symm, Function.update_of_ne hue, hu]
    have hloop := forN_sat (n := n) (f := fun i (s : XR × List XR × MMem XR × Nat) => do
        let (d, ui, mem, pu) := s
        let (_, ui) ← mtxGetCol (mem p) i ui
        let (_, ui2) ← mtxFromArr (Mtx.uninit junk n 1) ui
        let (_, d) ← mtxGet (mem e) i i d
        let (_, ui3) ← mtxMult (mem p) ui2 (Mtx.uninit junk n 1)
        if isSmall d then return (d, ui, mem, pu + 1)
        else do
          let (_, ui3) ← mtxScalarMultD ui3 (lit 1 / d)
          let (_, uv) ← vecFromArr ⟨n, ui⟩ ui3.data
          let (_, mem) ← (do
            let (rc, o) ← mtxSetCol (mem u) i uv.data
            return (rc, Function.update mem u o))
          return (d, uv.data, mem, pu)) (s := (junk 0, junkArr junk n, M, 0))
      (fun i st => st.2.1.length = n ∧ st.2.2.1 = Function.update M u (mtxOf (svdOverV V k U0 i) tu) ∧ st.2.2.2 = 0)
      ⟨by simp [junkArr], by
        dsimp only
        rw [show svdOverV V k U0 0 = U0 by ext a j; simp [svdOverV], ← hMu, Function.update_eq_self], rfl⟩ (by
        rintro i hi ⟨d, ui, mm, pu⟩ ⟨h1, h2, h3⟩
        dsimp only at h1 h2 h3 ⊢
        subst h2 h3
        rw [hMp, hMe]
        have hcol : mtxGetCol (mat V t) i ui = ok (0, arr (fun a => V a ⟨i, hi⟩) (ui.drop n)) := by
          conv_lhs => rw [arr_split ui n (by omega)]
          exact mtx_get_col_correct (V.map XR.fin) t _ _ ⟨i, hi⟩
        rw [hcol]
        simp only [ok_bind]
        rw [hY, from_arr_col]
        simp only [ok_bind]
        have hget : mtxGet (mat (svdSigma n k) te) i i d = ok (0, XR.fin (Real.sqrt (k ⟨i, hi⟩))) := by
          have := mtx_get_correct ((svdSigma n k).map XR.fin) te d ⟨i, hi⟩ ⟨i, hi⟩
          refine this.trans ?_
          simp [svdSigma]
        rw [hget]
        simp only [ok_bind]
        rw [mtx_mult_correct]
        simp only [ok_bind]
        have hsm : ¬isSmall (XR.fin (Real.sqrt (k ⟨i, hi⟩))) = true := by
          rw [isSmall_fin, abs_of_nonneg (Real.sqrt_nonneg _)]
          exact hs _
        rw [if_neg hsm, show (lit 1 : XR) = XR.fin 1 by rw [XR.lit_eq, Rat.cast_one], XR.fin_div (hs0 _), mtx_scalar_mult_correct]
        simp only [ok_bind]
        rw [col_data, vec_from_arr_correct _ _ (by simp [Vec.WF, arr, h1]) (by simp [arr])]
        simp only [ok_bind]
        have hlist : (arr (fun a => ((1 / Real.sqrt (k ⟨i, hi⟩)) • (V * Matrix.of fun b (_ : Fin 1) => V b ⟨i, hi⟩)) a 0) []).take n ++
            (arr (fun a => V a ⟨i, hi⟩) (ui.drop n)).drop n =
            arrOf (fun a => XR.fin ((V * V) a ⟨i, hi⟩ / Real.sqrt (k ⟨i, hi⟩))) [] := by
          rw [List.take_of_length_le (by simp [arr]), List.drop_of_length_le (by simp [arr, h1]), List.append_nil]
          show arrOf _ [] = _
          congr 1
          funext a
          congr 1
          beta_reduce
          rw [Matrix.smul_apply, smul_eq_mul, Matrix.mul_apply, Matrix.mul_apply]
          simp only [Matrix.of_apply]
          ring
        rw [hlist, Function.update_self]
        have hset := mtx_set_col_correct (svdOverV V k U0 i) tu [] (fun a => XR.fin ((V * V) a ⟨i, hi⟩ / Real.sqrt (k ⟨i, hi⟩))) ⟨i, hi⟩
        dsimp only at hset
        rw [hset]
        simp only [ok_bind, pure_eq, sat_ok, Function.update_idem]
        refine ⟨by simp [arrOf], ?_, trivial⟩
        congr 2
        ext a j
        rw [updateCol_apply]
        simp only [svdOverV, Matrix.of_apply]
        by_cases hj : j = ⟨i, hi⟩
        · subst hj
          rw [if_pos rfl, if_pos (by simp)]
        · rw [if_neg hj]
          have : j.val ≠ i := fun h => hj (Fin.ext h)
          exact if_congr ⟨fun h => by omega, fun h => by omega⟩ rfl rfl)
    obtain ⟨⟨d, ui, mm, pu⟩, hst, h1, h2, h3⟩ := hloop
    dsimp only at h1 h2 h3
    subst h2 h3
    simp only [pure_eq] at hst
    refine (congrArg (fun x => x >>= _) hst).trans ?_
    rw [ok_bind]
    simp only [hMp, mat_rows, Nat.sub_zero, Nat.sub_self, forN_zero, ok_bind]
  · rw [Function.update_self]
    unfold mat
    congr 1
    ext a j
    simp [svdOverV]
  · rw [Function.update_of_ne hue.symm, hM, Function.update_of_ne hpe.symm, Function.update_self]
  · rw [Function.update_of_ne hpu, hM, Function.update_self]
  · have : (Matrix.of fun a j => (V * V) a j / Real.sqrt (k j)) * svdSigma n k = V * V := by
      rw [hEsig]
      ext a j
      rw [Matrix.mul_diagonal, Matrix.of_apply, div_mul_cancel₀ _ (hs0 j)]
    rw [this, Matrix.mul_assoc, hVo', Matrix.mul_one]

/-- C145, C120, negation: with `v` equal to the matrix the stored factors do not multiply to the matrix, for every square matrix of full
rank that is not itself orthogonal. -/
theorem mtx_svd_over_v_wrong (fuel : ℕ) (junk : ℕ → XR) (mem : MMem XR) (p u e iter : ℕ) (hpu : p ≠ u) (hpe : p ≠ e) (hue : u ≠ e)
    (A : Matrix (Fin n) (Fin n) ℝ) (t tu te : List XR) (U0 E0 : Matrix (Fin n) (Fin n) XR) (hn : 0 < n) (k l : Fin n → ℝ)
    (hk : Spectrum fuel junk (A.transpose * A) iter k) (hl : Spectrum fuel junk (A * A.transpose) iter l)
    (hpos : ∀ i, 1 / 1000000 ≤ k i) (hp : mem p = mat A t) (hu : mem u = mtxOf U0 tu) (he : mem e = mtxOf E0 te)
    (hA : A.transpose * A ≠ 1) :
    ∃ (mem' : MMem XR) (U E V : Matrix (Fin n) (Fin n) ℝ), mtxSvdMem fuel junk mem p u e p iter = ok (0, mem') ∧
      mem' u = mat U tu ∧ mem' e = mat E te ∧ mem' p = mat V t ∧ A ≠ U * E * V.transpose := by
  obtain ⟨mem', U, E, V, h1, h2, h3, h4, h5, -, h6⟩ :=
    mtx_svd_over_v fuel junk mem p u e iter hpu hpe hue A t tu te U0 E0 hn k l hk hl hpos hp hu he
  refine ⟨mem', U, E, V, h1, h2, h3, h4, fun h => hA ?_⟩
  rw [h, h6, h5]

/-- The hypotheses are met: the diagonal matrix with entries 3 and 2, after enough steps. -/
example (junk : ℕ → XR) (h0 : junk 0 = XR.fin 0) (h1 : junk 1 = XR.fin 0) : ∃ fuel, ∃ k l : Fin 2 → ℝ,
    Spectrum fuel junk ((rectDiag 2 ![3, 2]).transpose * rectDiag 2 ![3, 2]) 5 k ∧
    Spectrum fuel junk (rectDiag 2 ![3, 2] * (rectDiag 2 ![3, 2]).transpose) 5 l ∧ (∀ i, 1 / 1000000 ≤ k i) ∧
    (rectDiag 2 (![3, 2] : Fin 2 → ℝ)).transpose * rectDiag 2 ![3, 2] ≠ 1 := by
  obtain ⟨F, hF⟩ := spectrum_rectDiag (m := 2) junk ![3, 2] 5 (by norm_num) le_rfl (by norm_num [SIZE_MOD]) h0 h1
    (by
      intro i j hij
      fin_cases i <;> fin_cases j <;> simp at hij ⊢ <;> norm_num)
    (by
      intro i
      right
      fin_cases i <;> norm_num)
    (by
      intro i j
      fin_cases i <;> fin_cases j <;> norm_num)
  obtain ⟨hk, l, hl⟩ := hF F le_rfl
  refine ⟨F, _, l, hk, hl, ?_, ?_⟩
  · intro i
    fin_cases i <;> norm_num
  · rw [rectDiag_left _ le_rfl]
    intro h
    have := congrFun (congrFun h 0) 0
    norm_num [Matrix.diagonal_apply] at this

end Verif
