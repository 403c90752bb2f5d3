import Mathlib.LinearAlgebra.Matrix.Charpoly.Basic
import Mathlib.LinearAlgebra.Matrix.Charpoly.Coeff
import Verif.Model.MatDecomp
import Verif.Lemmas.House
import Verif.Props.Matrices3

/-!
# Properties of the Householder matrix, the QR decomposition and the QR iteration (C28, C29, C30)
-/

set_option linter.unusedSectionVars false

namespace Verif

open Out

variable {n k s c : ℕ} {α : Type}

/-! ## C28: Householder reflections -/

/-- Augmenting a real matrix. -/
theorem mat_augm (x0 : XR) (d : ℕ) (H : Matrix (Fin k) (Fin k) ℝ) (B : Matrix (Fin (d + k)) (Fin (d + k)) XR) (t u : List XR)
    (hsz : d + k < SIZE_MOD) : mtxAugmDiag x0 (mat H t) (mtxOf B u) = ok (0, mat (augm d H) u) := by
  unfold mat
  rw [mtx_augm_diag_correct x0 _ B t u (by omega) hsz]
  congr 3
  ext i j
  rw [Matrix.map_apply, augm_entry]
  simp only [Matrix.of_apply]
  have hd : d + k - k = d := by omega
  by_cases h : d ≤ i.val ∧ d ≤ j.val
  · rw [dif_pos (by rw [hd]; exact h), dif_pos h]
    simp only [Matrix.map_apply, hd]
  · rw [dif_neg (by rw [hd]; exact h), dif_neg h]
    split_ifs <;> simp

theorem vec_rd0 (x : Fin (s + 1) → ℝ) (t : List XR) : rd (vec x t).data 0 = ok (XR.fin (x 0)) := (vec_is x t).rd 0

/-- The part of `zsl_mtx_householder` after the choice of the vector. -/
theorem house_core (junk : ℕ → XR) (x : Fin (s + 1) → ℝ) (h : Mtx XR) :
    (do
      let v0 ← rd (vec x []).data 0
      let sign : XR := if CReal.lt v0 (lit 0) then lit (-1) else lit 1
      let nv ← vecNorm (vec x [])
      let (_, e1) ← vecScalarMult (vec (Pi.single 0 1 : Fin (s + 1) → ℝ) []) (-sign * nv)
      let (_, v) ← vecAdd (vec x []) e1 (vec x [])
      let nv ← vecNorm v
      let (_, v) ← vecScalarDiv v nv
      let (_, mv) ← mtxFromArr (Mtx.uninit junk (s + 1) 1) v.data
      let (_, mvt) ← mtxTrans junk mv (Mtx.uninit junk 1 (s + 1))
      let (_, vvt) ← mtxMult mv mvt (Mtx.uninit junk (s + 1) (s + 1))
      let (_, id) ← mtxInit (Mtx.uninit junk (s + 1) (s + 1)) (some entryFnIdentity)
      let (_, vvt) ← mtxScalarMultD vvt (lit (-2))
      let (_, h2) ← mtxAdd id vvt (Mtx.uninit junk (s + 1) (s + 1))
      let (_, h) ← mtxAugmDiag (junk 0) h2 h
      return ((0 : Int), h)) = (do
      let (_, h) ← mtxAugmDiag (junk 0) (mat (houseMat x) []) h
      return ((0 : Int), h)) := by
  rw [vec_rd0, ok_bind, vecNorm_vec]
  have hsg : -(if CReal.lt (XR.fin (x 0)) (lit 0 : XR) then (lit (-1) : XR) else lit 1) *
      XR.fin (Real.sqrt (x ⬝ᵥ x)) = XR.fin (-hsign x * Real.sqrt (x ⬝ᵥ x)) := by
    unfold hsign
    by_cases hx : x 0 < 0
    · rw [if_pos (by simpa using hx), if_pos hx]
      simp
    · rw [if_neg (by simpa using hx), if_neg hx]
      simp
  simp only [ok_bind]
  rw [hsg, vecScalarMult_vec]
  simp only [ok_bind]
  have hadd : vecAdd (vec x []) (vec (fun i => (Pi.single 0 1 : Fin (s + 1) → ℝ) i * (-hsign x * Real.sqrt (x ⬝ᵥ x))) [])
      (vec x []) = ok (0, vec (hdir x) []) := by
    have := vecAdd_vec x (fun i => (Pi.single 0 1 : Fin (s + 1) → ℝ) i * (-hsign x * Real.sqrt (x ⬝ᵥ x)))
      (fun i => XR.fin (x i)) [] [] []
    rw [← vec_eq_vecOf] at this
    rw [this]
    congr 3
    funext i
    unfold hdir
    by_cases hi : i = 0
    · subst hi
      simp
      ring
    · simp [hi]
  rw [hadd]
  simp only [ok_bind]
  rw [vecNorm_vec]
  simp only [ok_bind]
  have hdiv : ∃ rc, vecScalarDiv (vec (hdir x) []) (XR.fin (Real.sqrt (hdir x ⬝ᵥ hdir x))) =
      ok (rc, vec (hunit x) []) := by
    by_cases hz : hdir x ⬝ᵥ hdir x = 0
    · refine ⟨-EINVAL, ?_⟩
      rw [hz, Real.sqrt_zero, vecScalarDiv_zero _ (vec_wf _ _), hunit, if_pos hz, dotProduct_self_eq_zero.1 hz]
    · refine ⟨0, ?_⟩
      have : Real.sqrt (hdir x ⬝ᵥ hdir x) ≠ 0 := fun h0 => hz
        ((Real.sqrt_eq_zero (dot_self_nonneg _)).1 h0)
      rw [vecScalarDiv_vec _ _ _ this, hunit, if_neg hz]
  obtain ⟨rc, hdiv⟩ := hdiv
  rw [hdiv]
  simp only [ok_bind]
  obtain ⟨U1, hU1⟩ := uninit_eq junk (s + 1) 1
  obtain ⟨U2, hU2⟩ := uninit_eq junk 1 (s + 1)
  obtain ⟨U3, hU3⟩ := uninit_eq junk (s + 1) (s + 1)
  rw [hU1, hU2, hU3]
  have hmv : mtxFromArr (mtxOf U1 []) (vec (hunit x) []).data =
      ok (0, mat (Matrix.replicateCol (Fin 1) (hunit x)) []) := by
    rw [mtx_from_arr_correct U1 [] _ (by simp [vec_data, arr])]
    unfold mat
    congr 3
    ext i j
    simp [-List.ofFn_succ, vec_data, arr, Matrix.replicateCol]
  rw [hmv]
  simp only [ok_bind]
  rw [mtx_trans_real _ _ _ _ _ (by norm_num)]
  simp only [ok_bind]
  rw [mtx_mult_correct]
  simp only [ok_bind]
  have hid : mtxInit (mtxOf U3 []) (some entryFnIdentity) = ok (0, mat (1 : Matrix (Fin (s + 1)) (Fin (s + 1)) ℝ) []) := by
    rw [mtx_init_identity]
    unfold mat
    congr 3
    ext i j
    simp only [Matrix.of_apply, Matrix.map_apply, Matrix.one_apply, Fin.ext_iff]
    split_ifs <;> simp
  rw [hid]
  simp only [ok_bind]
  rw [show (lit (-2) : XR) = XR.fin (-2) by simp, mtx_scalar_mult_correct]
  simp only [ok_bind]
  rw [(mtx_add_sub_correct _ _ _ _ _ _).1]
  simp only [ok_bind]
  have hH : (1 : Matrix (Fin (s + 1)) (Fin (s + 1)) ℝ) + (-2 : ℝ) • (Matrix.replicateCol (Fin 1) (hunit x) *
      (Matrix.replicateCol (Fin 1) (hunit x)).transpose) = houseMat x := by
    unfold houseMat
    congr 2
    ext i j
    simp [Matrix.mul_apply, Matrix.vecMulVec_apply]
  rw [hH]

theorem house_e1 :
    ({ sz := (vec (0 : Fin (s + 1) → ℝ) []).sz, data := (arr (0 : Fin (s + 1) → ℝ) []).set 0 (lit 1) } : Vec XR) =
      vec (Pi.single 0 1 : Fin (s + 1) → ℝ) [] := by
  unfold vec
  congr 1
  unfold arr
  rw [List.ofFn_succ, List.ofFn_succ]
  simp

/-- The reflection stored by `zsl_mtx_householder` without the Hessenberg option. -/
theorem mtxHouseholder_eq (junk : ℕ → XR) (A : Matrix (Fin (s + 1)) (Fin (c + 1)) ℝ)
    (B : Matrix (Fin (s + 1)) (Fin (s + 1)) XR) (t u : List XR) (hsz : s + 1 < SIZE_MOD) :
    mtxHouseholder junk (mat A t) (mtxOf B u) false = ok (0, mat (houseMat fun i => A i 0) u) := by
  have haug : (do
      let (_, h) ← mtxAugmDiag (junk 0) (mat (houseMat fun i => A i 0) []) (mtxOf B u)
      return ((0 : Int), h)) = ok (0, mat (houseMat fun i => A i 0) u) := by
    unfold mat
    rw [mtx_augm_diag_correct (junk 0) _ B [] u le_rfl hsz, ok_bind]
    dsimp only
    rw [pure_eq]
    congr 3
    ext i j
    simp only [Matrix.of_apply]
    rw [dif_pos (by rw [Nat.sub_self]; exact ⟨Nat.zero_le _, Nat.zero_le _⟩)]
    simp
  rw [← haug, ← house_core]
  unfold mtxHouseholder
  simp only [mat_rows, Bool.false_eq_true, if_false, reduceCtorEq]
  rw [if_neg (by simp), vecUninit_eq, junkArr_eq, vecInit_vec, ok_bind]
  dsimp only
  rw [vec_data, wr_lt _ (by simp [arr]), ok_bind, house_e1, show mtxGetCol (mat A t) 0 _ = _ from mat_getCol A t _ [] 0, ok_bind]
  dsimp only
  rw [show (⟨s + 1, arr (fun i => A i 0) []⟩ : Vec XR) = vecOf (fun i => XR.fin (A i 0)) [] from rfl, vecCopy_vec]
  rfl

/-- The reflection stored by `zsl_mtx_householder` with the Hessenberg option. -/
theorem mtxHouseholder_hess_eq (junk : ℕ → XR) (A : Matrix (Fin (1 + (s + 1))) (Fin (c + 1)) ℝ)
    (B : Matrix (Fin (1 + (s + 1))) (Fin (1 + (s + 1))) XR) (t u : List XR) (hsz : 2 * (1 + (s + 1)) < SIZE_MOD) :
    mtxHouseholder junk (mat A t) (mtxOf B u) true = ok (0, mat (augm 1 (houseMat fun i => A (Fin.natAdd 1 i) 0)) u) := by
  have haug : (do
      let (_, h) ← mtxAugmDiag (junk 0) (mat (houseMat fun i => A (Fin.natAdd 1 i) 0) []) (mtxOf B u)
      return ((0 : Int), h)) = ok (0, mat (augm 1 (houseMat fun i => A (Fin.natAdd 1 i) 0)) u) := by
    rw [mat_augm _ _ _ _ _ _ (by omega)]
    rfl
  rw [← haug, ← house_core]
  unfold mtxHouseholder
  simp only [mat_rows, if_true]
  rw [szSub_le (by omega), show 1 + (s + 1) - 1 = s + 1 by omega]
  rw [if_neg (by omega), vecUninit_eq, junkArr_eq, vecInit_vec, ok_bind]
  dsimp only
  rw [vec_data, wr_lt _ (by simp [arr]), ok_bind, house_e1, show mtxGetCol (mat A t) 0 _ = _ from mat_getCol A t _ [] 0, ok_bind]
  dsimp only
  have hsub : vecGetSubset (⟨1 + (s + 1), arr (fun i => A i 0) []⟩ : Vec XR) 1 (s + 1) (vecOf (fun i : Fin (s + 1) => junk i) []) =
      ok (0, vec (fun i => A (Fin.natAdd 1 i) 0) []) := by
    rw [show (⟨1 + (s + 1), arr (fun i => A i 0) []⟩ : Vec XR) = vec (fun i => A i 0) [] from rfl,
      vec_get_subset_correct _ _ _ _ (vec_wf (fun i => A i 0) []) (vecOf_wf _ _)]
    · rw [if_neg (by simp [vecOf]; omega)]
      rw [vec_sz, show min (s + 1) (1 + (s + 1) - 1) = s + 1 by omega, vecOf_drop, vec_data]
      congr 2
      unfold vec
      congr 1
      unfold arr
      congr 1
      rw [List.append_nil, List.take_of_length_le (by simp; omega)]
      apply List.ext_getElem
      · simp
        omega
      · intro i h1 h2
        simp [-List.ofFn_succ, add_comm]
    · rw [vec_data]
      simp [vecOf, arr, arrOf]
      omega
    · omega
  rw [hsub]
  rfl

/-- C28. Without the Hessenberg option `zsl_mtx_householder` returns 0 and stores a symmetric orthogonal matrix that maps the first
column of its input onto a multiple of the first axis; the multiple has the norm of the column as absolute value. -/
theorem mtx_householder_correct (junk : ℕ → XR) (A : Matrix (Fin (s + 1)) (Fin (c + 1)) ℝ)
    (B : Matrix (Fin (s + 1)) (Fin (s + 1)) XR) (t u : List XR) (hsz : s + 1 < SIZE_MOD) :
    ∃ H : Matrix (Fin (s + 1)) (Fin (s + 1)) ℝ, mtxHouseholder junk (mat A t) (mtxOf B u) false = ok (0, mat H u) ∧
      H.transpose = H ∧ H * H.transpose = 1 ∧
      (∀ i, i ≠ 0 → ∑ j, H i j * A j 0 = 0) ∧ (∑ j, H 0 j * A j 0) ^ 2 = ∑ j, A j 0 ^ 2 := by
  have hv := houseMat_mulVec fun i => A i 0
  refine ⟨_, mtxHouseholder_eq junk A B t u hsz, houseMat_symm _, ?_, fun i hi => ?_, ?_⟩
  · rw [houseMat_symm, houseMat_sq]
  · have := congrFun hv i
    rw [Pi.single_eq_of_ne hi] at this
    exact this
  · have := congrFun hv 0
    rw [Pi.single_eq_same] at this
    have h2 : ∑ j, houseMat (fun i => A i 0) 0 j * A j 0 = hsign (fun i => A i 0) * Real.sqrt ((fun i => A i 0) ⬝ᵥ fun i => A i 0) :=
      this
    rw [h2, mul_pow, Real.sq_sqrt (dot_self_nonneg _), pow_two, hsign_sq, one_mul]
    exact Finset.sum_congr rfl fun j _ => (pow_two _).symm

/-- C28. With the Hessenberg option `zsl_mtx_householder` returns 0 and stores a symmetric orthogonal matrix that keeps the first
component of the first column of its input and maps the part below onto a multiple of the second axis. -/
theorem mtx_householder_hess_correct (junk : ℕ → XR) (A : Matrix (Fin n) (Fin (c + 1)) ℝ)
    (B : Matrix (Fin n) (Fin n) XR) (t u : List XR) (hn : 2 ≤ n) (hsz : 2 * n < SIZE_MOD) :
    ∃ H : Matrix (Fin n) (Fin n) ℝ, mtxHouseholder junk (mat A t) (mtxOf B u) true = ok (0, mat H u) ∧
      H.transpose = H ∧ H * H.transpose = 1 ∧
      (∀ i, 2 ≤ i.val → ∑ j, H i j * A j 0 = 0) ∧ (∑ j, H ⟨0, by omega⟩ j * A j 0) = A ⟨0, by omega⟩ 0 := by
  obtain ⟨s, rfl⟩ : ∃ s, n = 1 + (s + 1) := ⟨n - 2, by omega⟩
  refine ⟨_, mtxHouseholder_hess_eq junk A B t u hsz, ?_, ?_, fun i hi => ?_, ?_⟩
  · rw [augm_transpose, houseMat_symm]
  · rw [augm_transpose, houseMat_symm, augm_mul, houseMat_sq, augm_one]
  · obtain ⟨l, rfl⟩ : ∃ l : Fin (s + 1), i = Fin.natAdd 1 l := ⟨⟨i.val - 1, by omega⟩, by ext; simp; omega⟩
    have := augm_mulVec_high 1 (houseMat fun i => A (Fin.natAdd 1 i) 0) (fun i => A i 0) l
    rw [houseMat_mulVec, Pi.single_eq_of_ne (by
      rintro rfl
      simp at hi)] at this
    exact this
  · exact augm_mulVec_low 1 (houseMat fun i => A (Fin.natAdd 1 i) 0) (fun i => A i 0) 0

/-! ## C29: QR decomposition -/

/-- One pass of the QR loop multiplies by the augmented reflection of the current column. -/
theorem qrdStep_eq (junk : ℕ → XR) (g s : ℕ) (R Q : Matrix (Fin (g + (s + 1))) (Fin (g + (s + 1))) ℝ)
    (M1 M2 M3 M4 : Matrix (Fin (g + (s + 1))) (Fin (g + (s + 1))) XR) (t1 t2 t3 t4 t5 u : List XR)
    (hsz : g + (s + 1) < SIZE_MOD) :
    let H := augm g (houseMat fun i => R (Fin.natAdd g i) (Fin.natAdd g 0))
    qrdStep junk (g + (s + 1)) (g + (s + 1)) false g (mtxOf M1 t1, mtxOf M2 t2, mtxOf M3 t3, mtxOf M4 t4, mat Q t5, mat R u) =
      ok (mat (H * R) t1, mtxOf M2 t2, mat H t3, mat (H * Q) t4, mat (H * Q) t5, mat (H * R) u) := by
  intro H
  unfold qrdStep
  simp only [mat_rows, mat_cols]
  rw [szSub_le (by omega), show g + (s + 1) - g = s + 1 by omega]
  obtain ⟨U, hU⟩ := uninit_eq junk (s + 1) (s + 1)
  rw [hU]
  obtain ⟨d1, d2, _, _, hred⟩ := mtx_reduce_iter_correct junk (junk 0) (R.map XR.fin) U u []
    ((List.range ((g + (s + 1)) * (g + (s + 1)))).map junk) ((List.range ((g + (s + 1)) * (g + (s + 1)))).map junk)
    (g + (s + 1) + 1) (by omega) (by omega) (by simp) (by simp) (by omega)
  have hun : Mtx.uninit junk (g + (s + 1)) (g + (s + 1)) = ⟨g + (s + 1), g + (s + 1),
    (List.range ((g + (s + 1)) * (g + (s + 1)))).map junk⟩ := rfl
  rw [hun]
  rw [show mat R u = mtxOf (R.map XR.fin) u from rfl, hred]
  simp only [ok_bind]
  set S : Matrix (Fin (s + 1)) (Fin (s + 1)) ℝ := Matrix.of fun a b => R (Fin.natAdd g a) (Fin.natAdd g b) with hS
  have hsub : (R.map XR.fin).submatrix (fun a : Fin (s + 1) => (⟨g + (s + 1) - (s + 1) + a, by omega⟩ : Fin (g + (s + 1))))
      (fun b : Fin (s + 1) => (⟨g + (s + 1) - (s + 1) + b, by omega⟩ : Fin (g + (s + 1)))) = S.map XR.fin := by
    ext a b
    simp only [Matrix.submatrix_apply, Matrix.map_apply, hS, Matrix.of_apply]
    congr 2 <;> · ext; simp
  rw [hsub, show mtxOf (S.map XR.fin) [] = mat S [] from rfl, mtxHouseholder_eq _ _ _ _ _ (by omega)]
  simp only [ok_bind]
  rw [mat_augm _ _ _ _ _ _ hsz]
  simp only [ok_bind]
  rw [show mtxOf (R.map XR.fin) u = mat R u from rfl]
  rw [show augm g (houseMat fun i => S i 0) = H from rfl, mtx_mult_correct]
  simp only [ok_bind]
  rw [mtx_mult_correct]
  simp only [ok_bind]
  rw [show mat Q t5 = mtxOf (Q.map XR.fin) t5 from rfl, show mat (H * Q) t4 = mtxOf ((H * Q).map XR.fin) t4 from rfl,
    mtx_copy_correct]
  simp only [ok_bind]
  rw [if_neg (by simp)]
  rw [show mat R u = mtxOf (R.map XR.fin) u from rfl, show mat (H * R) t1 = mtxOf ((H * R).map XR.fin) t1 from rfl,
    mtx_copy_correct]
  rfl

/-- One pass of the Hessenberg loop conjugates by the augmented reflection of the part of the column below the diagonal. -/
theorem qrdStep_hess_eq (junk : ℕ → XR) (g s : ℕ) (R Q : Matrix (Fin (g + (1 + (s + 1)))) (Fin (g + (1 + (s + 1)))) ℝ)
    (M1 M2 M3 M4 : Matrix (Fin (g + (1 + (s + 1)))) (Fin (g + (1 + (s + 1)))) XR) (t1 t2 t3 t4 t5 u : List XR)
    (hsz : 2 * (g + (1 + (s + 1))) < SIZE_MOD) :
    let H := augm g (augm 1 (houseMat fun i => R (Fin.natAdd g (Fin.natAdd 1 i)) (Fin.natAdd g 0)))
    qrdStep junk (g + (1 + (s + 1))) (g + (1 + (s + 1))) true g
        (mtxOf M1 t1, mtxOf M2 t2, mtxOf M3 t3, mtxOf M4 t4, mat Q t5, mat R u) =
      ok (mat (H * R) t1, mat (H * R * H) t2, mat H t3, mat (H * Q) t4, mat (H * Q) t5, mat (H * R * H) u) := by
  intro H
  unfold qrdStep
  simp only [mat_rows, mat_cols]
  rw [szSub_le (by omega), show g + (1 + (s + 1)) - g = 1 + (s + 1) by omega]
  obtain ⟨U, hU⟩ := uninit_eq junk (1 + (s + 1)) (1 + (s + 1))
  rw [hU]
  obtain ⟨d1, d2, _, _, hred⟩ := mtx_reduce_iter_correct junk (junk 0) (R.map XR.fin) U u []
    ((List.range ((g + (1 + (s + 1))) * (g + (1 + (s + 1))))).map junk)
    ((List.range ((g + (1 + (s + 1))) * (g + (1 + (s + 1))))).map junk)
    (g + (1 + (s + 1)) + 1) (by omega) (by omega) (by simp) (by simp) (by omega)
  have hun : Mtx.uninit junk (g + (1 + (s + 1))) (g + (1 + (s + 1))) = ⟨g + (1 + (s + 1)), g + (1 + (s + 1)),
    (List.range ((g + (1 + (s + 1))) * (g + (1 + (s + 1))))).map junk⟩ := rfl
  rw [hun]
  rw [show mat R u = mtxOf (R.map XR.fin) u from rfl, hred]
  simp only [ok_bind]
  set S : Matrix (Fin (1 + (s + 1))) (Fin (1 + s + 1)) ℝ :=
    Matrix.of fun a b => R (Fin.natAdd g a) (Fin.natAdd g b) with hS
  have hsub : (R.map XR.fin).submatrix
      (fun a : Fin (1 + (s + 1)) => (⟨g + (1 + (s + 1)) - (1 + (s + 1)) + a, by omega⟩ : Fin (g + (1 + (s + 1)))))
      (fun b : Fin (1 + (s + 1)) => (⟨g + (1 + (s + 1)) - (1 + (s + 1)) + b, by omega⟩ : Fin (g + (1 + (s + 1))))) =
        S.map XR.fin := by
    ext a b
    simp only [Matrix.submatrix_apply, Matrix.map_apply, hS, Matrix.of_apply]
    congr 2 <;> · ext; simp
  rw [hsub, show mtxOf (S.map XR.fin) [] = mat S [] from rfl, mtxHouseholder_hess_eq _ _ _ _ _ (by omega)]
  simp only [ok_bind]
  rw [mat_augm _ _ _ _ _ _ (by omega)]
  simp only [ok_bind]
  rw [show mtxOf (R.map XR.fin) u = mat R u from rfl]
  rw [show augm g (augm 1 (houseMat fun i => S (Fin.natAdd 1 i) 0)) = H from rfl, mtx_mult_correct]
  simp only [ok_bind]
  rw [mtx_mult_correct]
  simp only [ok_bind]
  rw [show mat Q t5 = mtxOf (Q.map XR.fin) t5 from rfl, show mat (H * Q) t4 = mtxOf ((H * Q).map XR.fin) t4 from rfl,
    mtx_copy_correct]
  simp only [ok_bind]
  rw [if_pos trivial, mtx_mult_correct]
  simp only [ok_bind]
  rw [show mat R u = mtxOf (R.map XR.fin) u from rfl, show mat (H * R * H) t2 = mtxOf ((H * R * H).map XR.fin) t2 from rfl,
    mtx_copy_correct]
  rfl

/-- The state between two passes of the loop: `qt` is orthogonal, `r` is `qt * A` and the first `g` columns of `r` are upper
triangular. -/
def QrInv (A : Matrix (Fin n) (Fin n) ℝ) (u : List XR) (g : ℕ)
    (st : Mtx XR × Mtx XR × Mtx XR × Mtx XR × Mtx XR × Mtx XR) : Prop :=
  ∃ (M1 M2 M3 M4 : Matrix (Fin n) (Fin n) XR) (Q R : Matrix (Fin n) (Fin n) ℝ),
    st = (mtxOf M1 [], mtxOf M2 [], mtxOf M3 [], mtxOf M4 [], mat Q [], mat R u) ∧
    Q * Q.transpose = 1 ∧ R = Q * A ∧ ∀ i j : Fin n, j.val < g → j < i → R i j = 0

theorem qrInv_step (junk : ℕ → XR) (A : Matrix (Fin n) (Fin n) ℝ) (u : List XR) (g : ℕ) (hg : g < n) (hsz : n < SIZE_MOD)
    (st : Mtx XR × Mtx XR × Mtx XR × Mtx XR × Mtx XR × Mtx XR) (h : QrInv A u g st) :
    (qrdStep junk n n false g st).sat (QrInv A u (g + 1)) := by
  obtain ⟨M1, M2, M3, M4, Q, R, rfl, hQ, hR, hz⟩ := h
  obtain ⟨s, rfl⟩ : ∃ s, n = g + (s + 1) := ⟨n - g - 1, by omega⟩
  have hstep := qrdStep_eq junk g s R Q M1 M2 M3 M4 [] [] [] [] [] u hsz
  set H := augm g (houseMat fun i => R (Fin.natAdd g i) (Fin.natAdd g 0)) with hH
  simp only at hstep
  rw [hstep, sat_ok]
  have hHt : H.transpose = H := by rw [hH, augm_transpose, houseMat_symm]
  have hHH : H * H = 1 := by rw [hH, augm_mul, houseMat_sq, augm_one]
  refine ⟨_, _, _, _, _, _, rfl, ?_, ?_, ?_⟩
  · rw [Matrix.transpose_mul, hHt, ← Matrix.mul_assoc, Matrix.mul_assoc H, hQ, Matrix.mul_one, hHH]
  · rw [hR, Matrix.mul_assoc]
  · intro i j hj hji
    have hcol : ∀ i, (H * R) i j = H.mulVec (fun l => R l j) i := fun i => rfl
    rw [hcol]
    refine Fin.addCases (motive := fun i => j < i → H.mulVec (fun l => R l j) i = 0) (fun i hji => ?_) (fun i hji => ?_) i hji
    · rw [hH, augm_mulVec_low]
      refine hz _ _ ?_ hji
      have := Fin.lt_def.1 hji
      have h2 := i.2
      simp at this
      omega
    · rw [hH, augm_mulVec_high]
      by_cases hjg : j.val < g
      · have h0 : (fun l : Fin (s + 1) => R (Fin.natAdd g l) j) = 0 := by
          funext l
          exact hz _ _ hjg (Fin.lt_def.2 (by simp; omega))
        rw [h0, Matrix.mulVec_zero]
        rfl
      · obtain rfl : j = Fin.natAdd g 0 := by
          ext
          simp
          omega
        rw [houseMat_mulVec, Pi.single_eq_of_ne]
        rintro rfl
        exact lt_irrefl _ hji

/-- C29. `zsl_mtx_qrd` of a square matrix (without the Hessenberg option) returns 0 and stores an orthogonal `Q` and an upper triangular
`R` whose product is the input. -/
theorem mtx_qrd_correct (junk : ℕ → XR) (A : Matrix (Fin n) (Fin n) ℝ) (B C : Matrix (Fin n) (Fin n) XR) (t u w : List XR)
    (hn : 0 < n) (hsz : n < SIZE_MOD) :
    ∃ Q R : Matrix (Fin n) (Fin n) ℝ, mtxQrd junk (mat A t) (mtxOf B w) (mtxOf C u) false = ok (0, mat Q w, mat R u) ∧
      Q * Q.transpose = 1 ∧ Q.transpose * Q = 1 ∧ (∀ i j, j < i → R i j = 0) ∧ Q * R = A := by
  unfold mtxQrd
  rw [if_neg (by simp; omega)]
  simp only [mat_rows, mat_cols]
  obtain ⟨U, hU⟩ := uninit_eq junk n n
  rw [hU, mtx_init_null]
  simp only [ok_bind]
  have hid : mtxInit (mtxOf U []) (some entryFnIdentity) = ok (0, mat (1 : Matrix (Fin n) (Fin n) ℝ) []) := by
    rw [mtx_init_identity]
    unfold mat
    congr 3
    ext i j
    simp only [Matrix.of_apply, Matrix.map_apply, Matrix.one_apply, Fin.ext_iff]
    split_ifs <;> simp
  rw [hid]
  simp only [ok_bind]
  rw [show mat A t = mtxOf (A.map XR.fin) t from rfl, mtx_copy_correct]
  simp only [ok_bind]
  rw [szSub_le (by omega)]
  have hloop := forN_sat (n := n - 1) (f := fun g s => qrdStep junk n n false g s) (s := (mtxOf U [], mtxOf U [],
    mtxOf (Matrix.of fun _ _ => lit 0) [], mtxOf U [], mat (1 : Matrix (Fin n) (Fin n) ℝ) [], mtxOf (A.map XR.fin) u))
    (QrInv A u) ⟨_, _, _, _, _, _, rfl, by simp, by simp, fun i j h => absurd h (by omega)⟩
    (fun g hg s hs => qrInv_step junk A u g (by omega) hsz s hs)
  obtain ⟨st, hst, M1, M2, M3, M4, Q, R, rfl, hQ, hR, hz⟩ := hloop
  rw [hst]
  simp only [ok_bind]
  rw [mtx_trans_real _ _ _ _ _ hn]
  have hQ' : Q.transpose * Q = 1 := mul_eq_one_comm.1 hQ
  refine ⟨Q.transpose, R, rfl, ?_, ?_, fun i j hji => hz i j ?_ hji, ?_⟩
  · rw [Matrix.transpose_transpose, hQ']
  · rw [Matrix.transpose_transpose, hQ]
  · have := Fin.lt_def.1 hji
    omega
  · rw [hR, ← Matrix.mul_assoc, hQ', Matrix.one_mul]

/-- The state between two passes of the Hessenberg loop. -/
def HessInv (A : Matrix (Fin n) (Fin n) ℝ) (u : List XR) (g : ℕ)
    (st : Mtx XR × Mtx XR × Mtx XR × Mtx XR × Mtx XR × Mtx XR) : Prop :=
  ∃ (M1 M2 M3 M4 : Matrix (Fin n) (Fin n) XR) (Q R : Matrix (Fin n) (Fin n) ℝ),
    st = (mtxOf M1 [], mtxOf M2 [], mtxOf M3 [], mtxOf M4 [], mat Q [], mat R u) ∧
    Q * Q.transpose = 1 ∧ R = Q * A * Q.transpose ∧ ∀ i j : Fin n, j.val < g → j.val + 1 < i.val → R i j = 0

theorem hessInv_step (junk : ℕ → XR) (A : Matrix (Fin n) (Fin n) ℝ) (u : List XR) (g : ℕ) (hg : g + 1 < n)
    (hsz : 2 * n < SIZE_MOD)
    (st : Mtx XR × Mtx XR × Mtx XR × Mtx XR × Mtx XR × Mtx XR) (h : HessInv A u g st) :
    (qrdStep junk n n true g st).sat (HessInv A u (g + 1)) := by
  obtain ⟨M1, M2, M3, M4, Q, R, rfl, hQ, hR, hz⟩ := h
  obtain ⟨s, rfl⟩ : ∃ s, n = g + (1 + (s + 1)) := ⟨n - g - 2, by omega⟩
  have hstep := qrdStep_hess_eq junk g s R Q M1 M2 M3 M4 [] [] [] [] [] u hsz
  set H := augm g (augm 1 (houseMat fun i => R (Fin.natAdd g (Fin.natAdd 1 i)) (Fin.natAdd g 0))) with hH
  simp only at hstep
  rw [hstep, sat_ok]
  have hHt : H.transpose = H := by rw [hH, augm_transpose, augm_transpose, houseMat_symm]
  have hHH : H * H = 1 := by rw [hH, augm_mul, augm_mul, houseMat_sq, augm_one, augm_one]
  refine ⟨_, _, _, _, _, _, rfl, ?_, ?_, ?_⟩
  · rw [Matrix.transpose_mul, hHt, ← Matrix.mul_assoc, Matrix.mul_assoc H, hQ, Matrix.mul_one, hHH]
  · rw [hR, Matrix.transpose_mul, hHt]
    simp only [Matrix.mul_assoc]
  · -- the product from the left
    have hleft : ∀ i j : Fin (g + (1 + (s + 1))), j.val < g + 1 → j.val + 1 < i.val → (H * R) i j = 0 := by
      intro i j hj hji
      have hcol : ∀ i, (H * R) i j = H.mulVec (fun l => R l j) i := fun i => rfl
      rw [hcol]
      refine Fin.addCases (motive := fun i => j.val + 1 < i.val → H.mulVec (fun l => R l j) i = 0)
        (fun i hji => ?_) (fun i => ?_) i hji
      · rw [hH, augm_mulVec_low]
        refine hz _ _ ?_ hji
        have h2 := i.2
        simp at hji
        omega
      · rw [hH, augm_mulVec_high]
        refine Fin.addCases (motive := fun i => j.val + 1 < (Fin.natAdd g i).val → Matrix.mulVec _ _ i = 0)
          (fun i hji => ?_) (fun i hji => ?_) i
        · rw [augm_mulVec_low]
          refine hz _ _ ?_ hji
          have h2 := i.2
          simp at hji
          omega
        · rw [augm_mulVec_high]
          by_cases hjg : j.val < g
          · have h0 : (fun l : Fin (s + 1) => R (Fin.natAdd g (Fin.natAdd 1 l)) j) = 0 := by
              funext l
              exact hz _ _ hjg (by simp; omega)
            rw [h0, Matrix.mulVec_zero]
            rfl
          · obtain rfl : j = Fin.natAdd g 0 := by
              ext
              simp
              omega
            rw [houseMat_mulVec, Pi.single_eq_of_ne]
            rintro rfl
            simp at hji
    intro i j hj hji
    -- the product from the right does not touch these columns
    have hright : (H * R * H) i j = (H * R) i j := by
      rw [hH]
      generalize augm g (augm 1 (houseMat fun i => R (Fin.natAdd g (Fin.natAdd 1 i)) (Fin.natAdd g 0))) * R = M
      by_cases hjg : j.val < g
      · obtain ⟨l, rfl⟩ : ∃ l : Fin g, j = Fin.castAdd _ l := ⟨⟨j.val, hjg⟩, rfl⟩
        rw [mul_augm_low]
      · obtain rfl : j = Fin.natAdd g (Fin.castAdd _ (0 : Fin 1)) := by
          ext
          simp
          omega
        rw [Matrix.mul_apply, Fin.sum_univ_add]
        have h1 : ∀ l : Fin g, augm g (augm 1 (houseMat fun i => R (Fin.natAdd g (Fin.natAdd 1 i)) (Fin.natAdd g 0)))
            (Fin.castAdd _ l) (Fin.natAdd g (Fin.castAdd _ (0 : Fin 1))) = 0 := by
          intro l
          simp [augm]
        simp only [h1, mul_zero, Finset.sum_const_zero, zero_add]
        have h2 := mul_augm_low 1 (houseMat fun i => R (Fin.natAdd g (Fin.natAdd 1 i)) (Fin.natAdd g 0))
          (Matrix.of fun (_ : Fin 1) l => M i (Fin.natAdd g l)) 0 0
        rw [Matrix.mul_apply] at h2
        simp only [Matrix.of_apply] at h2
        rw [← h2]
        refine Finset.sum_congr rfl fun l _ => ?_
        congr 1
        have h3 : ∀ (K : Matrix (Fin (1 + (s + 1))) (Fin (1 + (s + 1))) ℝ) a b,
            augm g K (Fin.natAdd g a) (Fin.natAdd g b) = K a b := by
          intro K a b
          simp [augm]
        exact h3 _ _ _
    rw [hright]
    exact hleft i j hj hji

/-- C29. `zsl_mtx_qrd` of a square matrix with the Hessenberg option returns 0 and stores an orthogonal `Q` and an upper Hessenberg `R` with
`Q * R * Qᵀ` equal to the input. -/
theorem mtx_qrd_hess_correct (junk : ℕ → XR) (A : Matrix (Fin n) (Fin n) ℝ) (B C : Matrix (Fin n) (Fin n) XR) (t u w : List XR)
    (hn : 0 < n) (hsz : 2 * n < SIZE_MOD) :
    ∃ Q R : Matrix (Fin n) (Fin n) ℝ, mtxQrd junk (mat A t) (mtxOf B w) (mtxOf C u) true = ok (0, mat Q w, mat R u) ∧
      Q * Q.transpose = 1 ∧ Q.transpose * Q = 1 ∧ (∀ i j : Fin n, j.val + 1 < i.val → R i j = 0) ∧
      Q * R * Q.transpose = A := by
  unfold mtxQrd
  rw [if_neg (by simp; omega)]
  simp only [mat_rows, mat_cols]
  obtain ⟨U, hU⟩ := uninit_eq junk n n
  rw [hU, mtx_init_null]
  simp only [ok_bind]
  have hid : mtxInit (mtxOf U []) (some entryFnIdentity) = ok (0, mat (1 : Matrix (Fin n) (Fin n) ℝ) []) := by
    rw [mtx_init_identity]
    unfold mat
    congr 3
    ext i j
    simp only [Matrix.of_apply, Matrix.map_apply, Matrix.one_apply, Fin.ext_iff]
    split_ifs <;> simp
  rw [hid]
  simp only [ok_bind]
  rw [show mat A t = mtxOf (A.map XR.fin) t from rfl, mtx_copy_correct]
  simp only [ok_bind]
  rw [szSub_le (by omega)]
  have hloop := forN_sat (n := n - 1) (f := fun g s => qrdStep junk n n true g s) (s := (mtxOf U [], mtxOf U [],
    mtxOf (Matrix.of fun _ _ => lit 0) [], mtxOf U [], mat (1 : Matrix (Fin n) (Fin n) ℝ) [], mtxOf (A.map XR.fin) u))
    (HessInv A u) ⟨_, _, _, _, _, _, rfl, by simp, by simp, fun i j h => absurd h (by omega)⟩
    (fun g hg s hs => hessInv_step junk A u g (by omega) hsz s hs)
  obtain ⟨st, hst, M1, M2, M3, M4, Q, R, rfl, hQ, hR, hz⟩ := hloop
  rw [hst]
  simp only [ok_bind]
  rw [mtx_trans_real _ _ _ _ _ hn]
  have hQ' : Q.transpose * Q = 1 := mul_eq_one_comm.1 hQ
  refine ⟨Q.transpose, R, rfl, ?_, ?_, fun i j hji => hz i j ?_ hji, ?_⟩
  · rw [Matrix.transpose_transpose, hQ']
  · rw [Matrix.transpose_transpose, hQ]
  · omega
  · rw [hR, Matrix.transpose_transpose, ← Matrix.mul_assoc, ← Matrix.mul_assoc, hQ', Matrix.one_mul, Matrix.mul_assoc, hQ',
      Matrix.mul_one]

/-! ## C30: the QR iteration -/

/-- C30. For every number of iterations `zsl_mtx_qrd_iter` returns 0 and stores a matrix orthogonally similar to its input. -/
theorem mtx_qrd_iter_correct (junk : ℕ → XR) (A : Matrix (Fin n) (Fin n) ℝ) (B : Matrix (Fin n) (Fin n) XR) (t u : List XR)
    (iter : ℕ) (hn : 0 < n) (hsz : n < SIZE_MOD) :
    ∃ P M : Matrix (Fin n) (Fin n) ℝ, mtxQrdIter junk (mat A t) (mtxOf B u) iter = ok (0, mat M u) ∧
      P * P.transpose = 1 ∧ M = P * A * P.transpose := by
  unfold mtxQrdIter
  rw [if_neg (by simp; omega), show mat A t = mtxOf (A.map XR.fin) t from rfl, mtx_copy_correct, ok_bind]
  simp only [mtxOf_rows]
  rw [if_neg (by simp)]
  obtain ⟨U, hU⟩ := uninit_eq junk n n
  rw [hU]
  have hloop : (forN iter (fun _ (s : Mtx XR × Mtx XR × Mtx XR) => do
        let x ← mtxQrd junk s.2.2 s.1 s.2.1 false
        let y ← mtxMult x.2.2 x.2.1 s.2.2
        return (x.2.1, x.2.2, y.2)) (mtxOf U [], mtxOf U [], mtxOf (A.map XR.fin) u)).sat fun s =>
      ∃ P M : Matrix (Fin n) (Fin n) ℝ, s.2.2 = mat M u ∧ P * P.transpose = 1 ∧ M = P * A * P.transpose := by
    refine (forN_sat (fun _ s => (∃ B : Matrix (Fin n) (Fin n) XR, s.1 = mtxOf B []) ∧
      (∃ B : Matrix (Fin n) (Fin n) XR, s.2.1 = mtxOf B []) ∧
      ∃ P M : Matrix (Fin n) (Fin n) ℝ, s.2.2 = mat M u ∧ P * P.transpose = 1 ∧ M = P * A * P.transpose) ?_ ?_).mono ?_
    · exact ⟨⟨U, rfl⟩, ⟨U, rfl⟩, 1, A, rfl, by simp, by simp⟩
    · rintro k _ ⟨q, r, mo⟩ ⟨⟨B1, rfl⟩, ⟨B2, rfl⟩, P, M, hM, hP, hPM⟩
      dsimp only at hM
      subst hM
      obtain ⟨Q, R, hqr, hQ, hQ', _, hmul⟩ := mtx_qrd_correct junk M B1 B2 u [] [] hn hsz
      dsimp only
      rw [hqr, ok_bind]
      dsimp only
      rw [show mat M u = mtxOf (M.map XR.fin) u from rfl, mtx_mult_correct, ok_bind]
      dsimp only
      rw [pure_eq, sat_ok]
      refine ⟨⟨_, rfl⟩, ⟨_, rfl⟩, Q.transpose * P, R * Q, rfl, ?_, ?_⟩
      · rw [Matrix.transpose_mul, Matrix.transpose_transpose, ← Matrix.mul_assoc, Matrix.mul_assoc Q.transpose, hP,
          Matrix.mul_one, hQ']
      · have hR : R = Q.transpose * M := by rw [← hmul, ← Matrix.mul_assoc, hQ', Matrix.one_mul]
        rw [hR, hPM, Matrix.transpose_mul, Matrix.transpose_transpose]
        simp only [Matrix.mul_assoc]
    · rintro s ⟨_, _, h⟩
      exact h
  obtain ⟨s, hs, P, M, hM, hP, hPM⟩ := hloop
  refine ⟨P, M, ?_, hP, hPM⟩
  rw [hs, ok_bind, hM]
  rfl

/-- C30. The QR iteration never changes the characteristic polynomial, the determinant or the trace. -/
theorem mtx_qrd_iter_charpoly (junk : ℕ → XR) (A : Matrix (Fin n) (Fin n) ℝ) (B : Matrix (Fin n) (Fin n) XR) (t u : List XR)
    (iter : ℕ) (hn : 0 < n) (hsz : n < SIZE_MOD) :
    ∃ M : Matrix (Fin n) (Fin n) ℝ, mtxQrdIter junk (mat A t) (mtxOf B u) iter = ok (0, mat M u) ∧
      M.charpoly = A.charpoly ∧ M.det = A.det ∧ M.trace = A.trace := by
  obtain ⟨P, M, h, hP, hM⟩ := mtx_qrd_iter_correct junk A B t u iter hn hsz
  have hP' : P.transpose * P = 1 := mul_eq_one_comm.1 hP
  refine ⟨M, h, ?_, ?_, ?_⟩
  · have hi : P⁻¹ = P.transpose := Matrix.inv_eq_right_inv hP
    have := Matrix.charpoly_units_conj ⟨P, P.transpose, hP, hP'⟩ A
    simp only at this
    rw [hM, ← hi]
    exact this
  · rw [hM, Matrix.det_mul, Matrix.det_mul, mul_right_comm, ← Matrix.det_mul, hP, Matrix.det_one, one_mul]
  · rw [hM, Matrix.trace_mul_comm, ← Matrix.mul_assoc, hP', Matrix.one_mul]

/-- Non-vacuity: a matrix with a zero column. -/
example (junk : ℕ → XR) : ∃ Q R : Matrix (Fin 3) (Fin 3) ℝ,
    mtxQrd junk (mat !![0, 2, 1; 0, -3, 4; 0, 5, 5] []) (mat (0 : Matrix (Fin 3) (Fin 3) ℝ) []) (mat (0 : Matrix (Fin 3) (Fin 3) ℝ) [])
      false = ok (0, mat Q [], mat R []) ∧ Q * R = !![0, 2, 1; 0, -3, 4; 0, 5, 5] := by
  obtain ⟨Q, R, h, _, _, _, h2⟩ := mtx_qrd_correct junk !![0, 2, 1; 0, -3, 4; 0, 5, 5]
    ((0 : Matrix (Fin 3) (Fin 3) ℝ).map XR.fin) ((0 : Matrix (Fin 3) (Fin 3) ℝ).map XR.fin) [] [] [] (by norm_num)
    (by rw [SIZE_MOD_eq]; norm_num)
  exact ⟨Q, R, h, h2⟩

end Verif
