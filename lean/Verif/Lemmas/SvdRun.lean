import Verif.Props.Eigen3

/-!
# The run of `zsl_mtx_svd`, given what the eigenvalue and eigenvector functions return
-/

set_option linter.unusedSectionVars false

namespace Verif

open Out Matrix

variable {m n : ℕ}

theorem arr_split {R : Type} (l : List R) (n : ℕ) (h : n ≤ l.length) :
    l = arrOf (fun i : Fin n => l[i.val]'(by omega)) (l.drop n) := by
  unfold arrOf
  conv_lhs => rw [← List.take_append_drop n l]
  congr 1
  apply List.ext_getElem
  · simp [h]
  · intro i h1 h2
    simp

theorem from_arr_col (U : Matrix (Fin n) (Fin 1) XR) (x : Fin n → ℝ) (s : List XR) :
    mtxFromArr (mtxOf U []) (arr x s) = ok (0, mat (Matrix.of fun i (_ : Fin 1) => x i) []) := by
  rw [mtx_from_arr_correct _ _ _ (by simp [arr])]
  congr 3
  ext i j
  obtain rfl : j = 0 := Subsingleton.elim _ _
  simp [arr]

theorem col_data (X : Matrix (Fin m) (Fin 1) ℝ) : (mat X []).data = arr (fun i => X i 0) [] := by
  unfold mat
  rw [mtxOf_eq, mkM_data]
  unfold arr
  rw [List.append_nil]
  apply List.ext_getElem
  · simp [mkD]
  · intro i h1 h2
    have hi : i < m := by simpa using h2
    simp [mkD, ext, hi, Nat.mod_one]

/-- The singular value is treated as zero. -/
def SigSmall (k : Fin n → ℝ) (i : Fin n) : Prop := Real.sqrt (k i) < 1 / 1000000

open Classical in
/-- The number of columns of `u` that come from the first loop. -/
noncomputable def svdRank (k : Fin n → ℝ) : ℕ := n - (Finset.univ.filter fun i => SigSmall k i).card

open Classical in
/-- The matrix `u` after the first `i` steps of the first loop. -/
noncomputable def svdCols (A : Matrix (Fin m) (Fin n) ℝ) (V : Matrix (Fin n) (Fin n) ℝ) (k : Fin n → ℝ) (U0 : Matrix (Fin m) (Fin m) XR) (i : ℕ) :
    Matrix (Fin m) (Fin m) XR :=
  Matrix.of fun a j => if h : j.val < n then (if j.val < i ∧ ¬SigSmall k ⟨j, h⟩ then
    XR.fin ((A * V) a ⟨j, h⟩ / Real.sqrt (k ⟨j, h⟩)) else U0 a j) else U0 a j

/-- The matrix of singular values. -/
noncomputable def svdSigma (m : ℕ) (k : Fin n → ℝ) : Matrix (Fin m) (Fin n) ℝ :=
  Matrix.of fun a b => if a.val = b.val then Real.sqrt (k b) else 0

open Classical in
/-- The matrix `u` at the end. -/
noncomputable def svdU (A : Matrix (Fin m) (Fin n) ℝ) (V : Matrix (Fin n) (Fin n) ℝ) (W : Matrix (Fin m) (Fin m) ℝ) (k : Fin n → ℝ)
    (U0 : Matrix (Fin m) (Fin m) XR) : Matrix (Fin m) (Fin m) XR :=
  Matrix.of fun a j => if svdRank k ≤ j.val then XR.fin (W a j) else svdCols A V k U0 n a j

theorem svdRank_le (k : Fin n → ℝ) : svdRank k ≤ n := Nat.sub_le _ _

open Classical in
theorem svd_run (fuel : ℕ) (junk : ℕ → XR) (A : Matrix (Fin m) (Fin n) ℝ) (t u e v : List XR) (U0 : Matrix (Fin m) (Fin m) XR)
    (E0 : Matrix (Fin m) (Fin n) XR) (V0 : Matrix (Fin n) (Fin n) XR) (iter : ℕ) (hn : 0 < n) (hnm : n ≤ m)
    (rck rcv rcw : Int) (k : Fin n → ℝ) (V : Matrix (Fin n) (Fin n) ℝ) (W : Matrix (Fin m) (Fin m) ℝ) (hk : ∀ i, 0 ≤ k i)
    (heig : mtxEigenvalues fuel junk (mat (A.transpose * A) []) (Vec.uninit junk n) iter = ok (rck, vec k []))
    (hV : mtxEigenvectors fuel junk (mat (A.transpose * A) []) (mtxOf V0 v) iter true = ok (rcv, mat V v))
    (hW : mtxEigenvectors fuel junk (mat (A * A.transpose) []) (Mtx.uninit junk m m) iter true = ok (rcw, mat W [])) :
    mtxSvd fuel junk (mat A t) (mtxOf U0 u) (mtxOf E0 e) (mtxOf V0 v) iter =
      ok (0, mtxOf (svdU A V W k U0) u, mat (svdSigma m k) e, mat V v) := by
  have hm : 0 < m := by omega
  unfold mtxSvd
  rw [if_neg (by simp; omega)]
  have hmin : ∀ [Decidable ((mat A t).rows ≤ (mat A t).cols)],
      (if (mat A t).rows ≤ (mat A t).cols then (mat A t).rows else (mat A t).cols) = n := by
    intro
    have h1 : (mat A t).rows = m := rfl
    have h2 : (mat A t).cols = n := rfl
    split_ifs with h
    · omega
    · rfl
  simp only [hmin]
  simp only [mat_rows, mat_cols]
  obtain ⟨At, hAt⟩ := uninit_eq junk n m
  obtain ⟨X1, hX1⟩ := uninit_eq junk m m
  obtain ⟨X2, hX2⟩ := uninit_eq junk n n
  obtain ⟨Y2, hY2⟩ := uninit_eq junk n 1
  obtain ⟨Y3, hY3⟩ := uninit_eq junk m 1
  have htr : mtxTrans junk (mat A t) (mtxOf At []) = ok (0, mat A.transpose []) := mtx_trans_correct junk (A.map XR.fin) At t [] hn
  rw [hAt, htr]
  simp only [ok_bind]
  rw [hX1] at hW
  rw [hX1, hX2, mtx_mult_correct]
  simp only [ok_bind]
  rw [mtx_mult_correct]
  simp only [ok_bind]
  rw [hW]
  simp only [ok_bind]
  refine (congrArg (fun x => x >>= _) (if_neg (lt_irrefl n))).trans ?_
  rw [heig]
  simp only [ok_bind]
  rw [mtx_init_null]
  simp only [ok_bind]
  -- the singular values
  have hsig : ∀ i : Fin n, (CReal.sqrt (XR.fin (k i)) : XR) = XR.fin (Real.sqrt (k i)) := by
    exact fun i => XR.fin_sqrt (hk i)
  have hE := forN_eq (n := n) (f := fun g (e : Mtx XR) => do
      let a ← rd (vec k []).data g
      let (_, e) ← mtxSet e g g (CReal.sqrt a)
      return e) (s := mtxOf (Matrix.of fun (_ : Fin m) (_ : Fin n) => (lit 0 : XR)) e)
    (fun i => mat (Matrix.of fun (a : Fin m) (b : Fin n) => if a.val = b.val ∧ b.val < i then Real.sqrt (k b) else 0) e) (by
      unfold mat
      congr 1
      ext a b
      simp [XR.lit_eq]) (by
      intro i hi
      have hrd : rd (vec k []).data i = ok (XR.fin (k ⟨i, hi⟩)) := by
        rw [vec_data, rd_lt (by simpa [arr] using hi)]
        simp [arr]
      rw [hrd]
      simp only [ok_bind]
      rw [hsig]
      have := mat_set (Matrix.of fun (a : Fin m) (b : Fin n) => if a.val = b.val ∧ b.val < i then Real.sqrt (k b) else 0) e
        (Real.sqrt (k ⟨i, hi⟩)) ⟨i, by omega⟩ ⟨i, hi⟩
      dsimp only at this
      rw [this]
      simp only [ok_bind, pure_eq]
      congr 2
      ext a b
      simp only [Matrix.of_apply, Fin.ext_iff]
      by_cases h1 : a.val = i ∧ b.val = i
      · rw [if_pos h1, if_pos ⟨by omega, by omega⟩]
        congr 2
        exact Fin.ext h1.2.symm
      · rw [if_neg h1]
        exact if_congr ⟨fun h => ⟨h.1, by omega⟩, fun h => ⟨h.1, by omega⟩⟩ rfl rfl)
  rw [hE]
  simp only [ok_bind]
  have hEfin : (Matrix.of fun (a : Fin m) (b : Fin n) => if a.val = b.val ∧ b.val < n then Real.sqrt (k b) else 0) = svdSigma m k := by
    ext a b
    simp [svdSigma]
  rw [hEfin, hV]
  simp only [ok_bind]
  -- the first loop
  have hloop := forN_sat (n := n) (f := fun i (s : XR × List XR × Mtx XR × Nat) => do
      let (d, ui, u, pu) := s
      let (_, ui) ← mtxGetCol (mat V v) i ui
      let (_, ui2) ← mtxFromArr (Mtx.uninit junk n 1) ui
      let (_, d) ← mtxGet (mat (svdSigma m k) e) i i d
      let (_, ui3) ← mtxMult (mat A t) ui2 (Mtx.uninit junk m 1)
      if isSmall d then return (d, ui, u, pu + 1)
      else do
        let (_, ui3) ← mtxScalarMultD ui3 (lit 1 / d)
        let (_, uv) ← vecFromArr ⟨m, ui⟩ ui3.data
        let (_, u) ← mtxSetCol u i uv.data
        return (d, uv.data, u, pu)) (s := (junk 0, junkArr junk m, mtxOf U0 u, 0))
    (fun i st => st.2.1.length = m ∧ st.2.2.1 = mtxOf (svdCols A V k U0 i) u ∧
      st.2.2.2 = (Finset.univ.filter fun j : Fin n => j.val < i ∧ SigSmall k j).card)
    ⟨by simp [junkArr], by
      dsimp only
      congr 1
      ext a j
      simp [svdCols], by simp⟩ (by
      rintro i hi ⟨d, ui, uu, pu⟩ ⟨h1, h2, h3⟩
      dsimp only at h1 h2 h3 ⊢
      subst h2 h3
      have hcol : mtxGetCol (mat V v) i ui = ok (0, arr (fun a => V a ⟨i, hi⟩) (ui.drop n)) := by
        conv_lhs => rw [arr_split ui n (by omega)]
        exact mtx_get_col_correct (V.map XR.fin) v _ _ ⟨i, hi⟩
      rw [hcol]
      simp only [ok_bind]
      rw [hY2, from_arr_col]
      simp only [ok_bind]
      have hget : mtxGet (mat (svdSigma m k) e) i i d = ok (0, XR.fin (Real.sqrt (k ⟨i, hi⟩))) := by
        have := mtx_get_correct ((svdSigma m k).map XR.fin) e d ⟨i, by omega⟩ ⟨i, hi⟩
        refine this.trans ?_
        simp [svdSigma]
      rw [hget]
      simp only [ok_bind]
      rw [hY3, mtx_mult_correct]
      simp only [ok_bind]
      have hcount : (Finset.univ.filter fun j : Fin n => j.val < i + 1 ∧ SigSmall k j).card =
          (Finset.univ.filter fun j : Fin n => j.val < i ∧ SigSmall k j).card + if SigSmall k ⟨i, hi⟩ then 1 else 0 := by
        by_cases hs : SigSmall k ⟨i, hi⟩
        · rw [if_pos hs]
          have : (Finset.univ.filter fun j : Fin n => j.val < i + 1 ∧ SigSmall k j) =
              insert ⟨i, hi⟩ (Finset.univ.filter fun j : Fin n => j.val < i ∧ SigSmall k j) := by
            ext j
            simp only [Finset.mem_filter, Finset.mem_univ, true_and, Finset.mem_insert]
            constructor
            · rintro ⟨h4, h5⟩
              rcases Nat.lt_succ_iff_lt_or_eq.1 h4 with h | h
              · exact Or.inr ⟨h, h5⟩
              · exact Or.inl (Fin.ext h)
            · rintro (rfl | ⟨h4, h5⟩)
              · exact ⟨by simp, hs⟩
              · exact ⟨by omega, h5⟩
          rw [this, Finset.card_insert_of_notMem (by simp)]
        · rw [if_neg hs]
          refine (congrArg Finset.card ?_).trans (Nat.add_zero _).symm
          ext j
          simp only [Finset.mem_filter, Finset.mem_univ, true_and]
          constructor
          · rintro ⟨h4, h5⟩
            rcases Nat.lt_succ_iff_lt_or_eq.1 h4 with h | h
            · exact ⟨h, h5⟩
            · exact absurd (by rwa [show j = ⟨i, hi⟩ from Fin.ext h] at h5) hs
          · rintro ⟨h4, h5⟩
            exact ⟨by omega, h5⟩
      have hsm : isSmall (XR.fin (Real.sqrt (k ⟨i, hi⟩))) = true ↔ SigSmall k ⟨i, hi⟩ := by
        rw [isSmall_fin, abs_of_nonneg (Real.sqrt_nonneg _), SigSmall]
      by_cases hs : SigSmall k ⟨i, hi⟩
      · rw [if_pos (hsm.2 hs)]
        simp only [pure_eq, sat_ok]
        refine ⟨by simp [arr, h1, hnm], ?_, ?_⟩
        · congr 1
          ext a j
          simp only [svdCols, Matrix.of_apply]
          split_ifs with h4 h5 h6 h7
          · rfl
          · exact absurd ⟨by omega, h5.2⟩ h6
          · rcases Nat.lt_succ_iff_lt_or_eq.1 h7.1 with h | h
            · exact absurd ⟨h, h7.2⟩ h5
            · refine absurd hs ?_
              have : (⟨j.val, h4⟩ : Fin n) = ⟨i, hi⟩ := Fin.ext h
              rw [← this]
              exact h7.2
          · rfl
          · rfl
        · rw [hcount, if_pos hs]
      · rw [if_neg (by rw [hsm]; exact hs)]
        have hs0 : Real.sqrt (k ⟨i, hi⟩) ≠ 0 := by
          intro h
          rw [SigSmall, h] at hs
          norm_num at hs
        rw [show (lit 1 : XR) = XR.fin 1 by rw [XR.lit_eq, Rat.cast_one], XR.fin_div hs0, mtx_scalar_mult_correct]
        simp only [ok_bind]
        rw [col_data, vec_from_arr_correct _ _ (by simp [Vec.WF, arr, h1, hnm]) (by simp [arr])]
        simp only [ok_bind]
        have hlist : (arr (fun a => ((1 / Real.sqrt (k ⟨i, hi⟩)) • (A * Matrix.of fun b (_ : Fin 1) => V b ⟨i, hi⟩)) a 0) []).take m ++
            (arr (fun a => V a ⟨i, hi⟩) (ui.drop n)).drop m =
            arrOf (fun a => XR.fin ((A * V) a ⟨i, hi⟩ / Real.sqrt (k ⟨i, hi⟩))) [] := by
          rw [List.take_of_length_le (by simp [arr]), List.drop_of_length_le (by simp [arr, h1]; omega), List.append_nil]
          show arrOf _ [] = _
          congr 1
          funext a
          congr 1
          beta_reduce
          rw [Matrix.smul_apply, smul_eq_mul, Matrix.mul_apply, Matrix.mul_apply]
          simp only [Matrix.of_apply]
          ring
        refine (congrArg (fun x => Out.sat (mtxSetCol _ _ x >>= fun y => ok (_, x, y.2, _)) _) hlist).mpr ?_
        have hset := mtx_set_col_correct (svdCols A V k U0 i) u [] (fun a => XR.fin ((A * V) a ⟨i, hi⟩ / Real.sqrt (k ⟨i, hi⟩)))
          ⟨i, by omega⟩
        dsimp only at hset
        rw [hset]
        simp only [ok_bind, sat_ok]
        refine ⟨by simp [arrOf], ?_, ?_⟩
        · congr 1
          ext a j
          rw [updateCol_apply]
          by_cases hj : j.val = i
          · obtain ⟨jv, hjv⟩ := j
            dsimp only at hj
            subst hj
            rw [if_pos rfl]
            simp only [svdCols, Matrix.of_apply]
            rw [dif_pos hi, if_pos ⟨by simp, hs⟩]
          · rw [if_neg (fun h => hj (Fin.ext_iff.1 h))]
            simp only [svdCols, Matrix.of_apply]
            split_ifs with h4 h5 h6 h7
            · rfl
            · exact absurd ⟨by omega, h5.2⟩ h6
            · exact absurd ⟨by omega, h7.2⟩ h5
            · rfl
            · rfl
        · rw [hcount, if_neg hs, Nat.add_zero])
  obtain ⟨⟨d, ui, uu, pu⟩, hst, h1, h2, h3⟩ := hloop
  dsimp only at h1 h2 h3
  subst h2
  refine (congrArg (fun x => x >>= _) hst).trans ?_
  rw [ok_bind]
  simp only
  have hpu : n - pu = svdRank k := by
    rw [h3, svdRank]
    congr 2
    ext j
    simp
  rw [hpu]
  -- the second loop
  have hloop2 := forN_sat (n := m - svdRank k) (f := fun f' (s : List XR × Mtx XR) => do
      let f := svdRank k + f'
      let (_, hu) ← mtxGetCol (mat W []) f s.1
      let (_, u) ← mtxSetCol s.2 f hu
      return (hu, u)) (s := (junkArr junk m, mtxOf (svdCols A V k U0 n) u))
    (fun i st => (∃ z : Fin m → XR, st.1 = arrOf z []) ∧
      st.2 = mtxOf (Matrix.of fun a j => if svdRank k ≤ j.val ∧ j.val < svdRank k + i then XR.fin (W a j) else svdCols A V k U0 n a j) u)
    ⟨⟨_, junkArr_eq junk m⟩, by
      dsimp only
      congr 1
      ext a j
      rw [Matrix.of_apply, if_neg (by omega)]⟩ (by
      rintro i hi ⟨hu, uu⟩ ⟨⟨z, h4⟩, h5⟩
      dsimp only at h4 h5 ⊢
      subst h4 h5
      have hf : svdRank k + i < m := by omega
      have hget := mtx_get_col_correct (W.map XR.fin) [] [] z ⟨svdRank k + i, hf⟩
      refine (congrArg (fun x => Out.sat (x >>= _) _) hget).mpr ?_
      simp only [ok_bind]
      have hset := mtx_set_col_correct (Matrix.of fun a (j : Fin m) => if svdRank k ≤ j.val ∧ j.val < svdRank k + i then XR.fin (W a j) else
        svdCols A V k U0 n a j) u [] (fun a => W.map XR.fin a ⟨svdRank k + i, hf⟩) ⟨svdRank k + i, hf⟩
      dsimp only at hset
      rw [hset]
      simp only [ok_bind, pure_eq, sat_ok]
      refine ⟨⟨_, rfl⟩, ?_⟩
      congr 1
      ext a j
      rw [updateCol_apply]
      by_cases hj : j.val = svdRank k + i
      · obtain ⟨jv, hjv⟩ := j
        dsimp only at hj
        subst hj
        rw [if_pos rfl, Matrix.of_apply, if_pos ⟨by simp, by simp⟩, Matrix.map_apply]
      · rw [if_neg (fun h => hj (Fin.ext_iff.1 h)), Matrix.of_apply, Matrix.of_apply]
        exact if_congr ⟨fun h => ⟨h.1, by omega⟩, fun h => ⟨h.1, by omega⟩⟩ rfl rfl)
  obtain ⟨⟨hu, uu⟩, hst2, -, h5⟩ := hloop2
  dsimp only at h5
  subst h5
  refine (congrArg (fun x => x >>= _) hst2).trans ?_
  rw [ok_bind]
  simp only [pure_eq]
  congr 4
  ext a j
  rw [Matrix.of_apply, svdU, Matrix.of_apply]
  exact if_congr ⟨fun h => h.1, fun h => ⟨h, by have := svdRank_le k; omega⟩⟩ rfl rfl

end Verif
