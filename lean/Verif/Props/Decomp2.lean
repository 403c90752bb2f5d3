import Mathlib.Analysis.InnerProductSpace.GramSchmidtOrtho
import Mathlib.Analysis.InnerProductSpace.PiL2
import Verif.Model.MatDecomp
import Verif.Lemmas.VecReal

/-!
# Properties of the Gram-Schmidt process and of column normalisation (C31)
-/

set_option linter.unusedSectionVars false

namespace Verif

open Out

variable {r c : ℕ}

/-- Column `t` of the Gram-Schmidt process applied to the columns of `A`. -/
noncomputable def gsCol (A : Matrix (Fin r) (Fin c) ℝ) (t : Fin c) : Fin r → ℝ :=
  WithLp.ofLp (InnerProductSpace.gramSchmidt ℝ (fun j => WithLp.toLp 2 (fun i => A i j)) t)

theorem inner_eq_dot (x y : EuclideanSpace ℝ (Fin r)) : inner ℝ x y = WithLp.ofLp y ⬝ᵥ WithLp.ofLp x := by
  rw [EuclideanSpace.inner_eq_star_dotProduct]
  simp

theorem gsCol_orthogonal (A : Matrix (Fin r) (Fin c) ℝ) {i j : Fin c} (h : i ≠ j) : gsCol A i ⬝ᵥ gsCol A j = 0 := by
  have := InnerProductSpace.gramSchmidt_orthogonal ℝ (fun j => WithLp.toLp 2 (fun i => A i j)) h.symm
  rwa [inner_eq_dot] at this

theorem gsCol_ne_zero (A : Matrix (Fin r) (Fin c) ℝ) (hA : LinearIndependent ℝ fun j i => A i j) (j : Fin c) :
    gsCol A j ≠ 0 := by
  have hi : LinearIndependent ℝ (fun j => WithLp.toLp 2 (fun i => A i j) : Fin c → EuclideanSpace ℝ (Fin r)) :=
    hA.map' (WithLp.linearEquiv 2 ℝ (Fin r → ℝ)).symm.toLinearMap (LinearEquiv.ker _)
  have := InnerProductSpace.gramSchmidt_ne_zero (𝕜 := ℝ) j hi
  intro h
  apply this
  exact (WithLp.ofLp_eq_zero 2).1 h

theorem gsCol_eq (A : Matrix (Fin r) (Fin c) ℝ) (t : Fin c) :
    gsCol A t = (fun i => A i t) - ∑ g ∈ Finset.Iio t,
      fun i => gsCol A g i * (((fun i => A i t) ⬝ᵥ gsCol A g) / (gsCol A g ⬝ᵥ gsCol A g)) := by
  have h := InnerProductSpace.gramSchmidt_def'' ℝ (fun j => WithLp.toLp 2 (fun i => A i j)) t
  have h2 := congrArg WithLp.ofLp h
  simp only [WithLp.ofLp_add, WithLp.ofLp_sum, WithLp.ofLp_smul] at h2
  rw [eq_sub_iff_add_eq]
  conv_rhs => rw [h2]
  congr 1
  refine Finset.sum_congr rfl fun g _ => ?_
  funext i
  rw [Pi.smul_apply, smul_eq_mul, mul_comm]
  congr 2
  exact ((real_inner_self_eq_norm_sq _).symm.trans (inner_eq_dot _ _)).symm

/-- The matrix whose first `t` columns are those of `G` and whose others are those of `B`. -/
def colsUpTo (G : Matrix (Fin r) (Fin c) ℝ) (B : Matrix (Fin r) (Fin c) XR) (t : ℕ) : Matrix (Fin r) (Fin c) XR :=
  Matrix.of fun i j => if j.val < t then XR.fin (G i j) else B i j

theorem colsUpTo_zero (G : Matrix (Fin r) (Fin c) ℝ) (B : Matrix (Fin r) (Fin c) XR) : colsUpTo G B 0 = B := by
  ext i j
  simp [colsUpTo]

theorem colsUpTo_all (G : Matrix (Fin r) (Fin c) ℝ) (B : Matrix (Fin r) (Fin c) XR) (t : List XR) :
    mtxOf (colsUpTo G B c) t = mat G t := by
  unfold mat
  congr 1
  ext i j
  simp [colsUpTo]

theorem colsUpTo_update (G : Matrix (Fin r) (Fin c) ℝ) (B : Matrix (Fin r) (Fin c) XR) (t : Fin c) :
    (colsUpTo G B t).updateCol t (fun i => XR.fin (G i t)) = colsUpTo G B (t.val + 1) := by
  ext i j
  rw [Matrix.updateCol_apply]
  simp only [colsUpTo, Matrix.of_apply]
  by_cases h : j = t
  · rw [if_pos h, if_pos (by rw [h]; omega), h]
  · rw [if_neg h]
    refine if_congr ?_ rfl rfl
    rw [Fin.ext_iff] at h
    omega

/-- C31. `zsl_mtx_gram_schmidt` on a matrix with independent columns stores exactly the Gram-Schmidt vectors. -/
theorem mtx_gram_schmidt_eq (junk : ℕ → XR) (A : Matrix (Fin r) (Fin c) ℝ) (B : Matrix (Fin r) (Fin c) XR)
    (t u : List XR) (hr : 0 < r) (hA : LinearIndependent ℝ fun j i => A i j) :
    mtxGramSchmidt junk (mat A t) (mtxOf B u) = ok (0, mat (Matrix.of fun i j => gsCol A j i) u) := by
  set G : Matrix (Fin r) (Fin c) ℝ := Matrix.of fun i j => gsCol A j i with hG
  have hGc : ∀ j, (fun i => G i j) = gsCol A j := fun j => rfl
  have hne : ∀ j, gsCol A j ⬝ᵥ gsCol A j ≠ 0 := fun j h => gsCol_ne_zero A hA j (dotProduct_self_eq_zero.1 h)
  unfold mtxGramSchmidt
  rw [if_neg (by simp; omega)]
  simp only [mat_rows, mat_cols, vecUninit_eq]
  suffices h : (forN c (fun t' (s : Vec XR × Vec XR × Vec XR × Mtx XR) => do
      let (v, w, q, mort) := s
      let (_, q) ← vecInit q
      let (_, vd) ← mtxGetCol (mat A t) t' v.data
      let v : Vec XR := { v with data := vd }
      let (w, q) ← forN t' (fun g (s : Vec XR × Vec XR) => do
        let (w, q) := s
        let (_, wd) ← mtxGetCol mort g w.data
        let (_, w) ← vecProjectOnto { w with data := wd } v
        let (_, q) ← vecAdd q w q
        return (w, q)) (w, q)
      let (_, v) ← vecSub v q v
      let (_, mort) ← mtxSetCol mort t' v.data
      return (v, w, q, mort)) (vecOf (fun i : Fin r => junk i) [], vecOf (fun i : Fin r => junk i) [],
        vecOf (fun i : Fin r => junk i) [], mtxOf B u)).sat fun s => s.2.2.2 = mat G u by
    obtain ⟨s, hs, h2⟩ := h
    rw [hs, ok_bind, h2]
    rfl
  refine (forN_sat (fun t' s => (∃ x : Fin r → XR, s.1 = vecOf x []) ∧ (∃ x : Fin r → XR, s.2.1 = vecOf x []) ∧
    (∃ x : Fin r → XR, s.2.2.1 = vecOf x []) ∧ s.2.2.2 = mtxOf (colsUpTo G B t') u) ?_ ?_).mono ?_
  · exact ⟨⟨_, rfl⟩, ⟨_, rfl⟩, ⟨_, rfl⟩, by rw [colsUpTo_zero]⟩
  · rintro t' ht' ⟨v, w, q, mort⟩ ⟨⟨v, rfl⟩, ⟨w, rfl⟩, ⟨q, rfl⟩, hm⟩
    dsimp only at hm ⊢
    subst hm
    obtain ⟨tt, rfl⟩ : ∃ tt : Fin c, tt.val = t' := ⟨⟨t', ht'⟩, rfl⟩
    rw [vecInit_vec, ok_bind]
    dsimp only
    rw [show (vecOf v []).data = arrOf v [] from rfl, mat_getCol, ok_bind]
    dsimp only
    rw [show ({ sz := (vecOf v []).sz, data := arr (fun i => A i tt) [] } : Vec XR) = vec (fun i => A i tt) [] from rfl]
    have hin : (forN tt.val (fun g (s : Vec XR × Vec XR) => do
        let (w, q) := s
        let (_, wd) ← mtxGetCol (mtxOf (colsUpTo G B tt) u) g w.data
        let (_, w) ← vecProjectOnto { w with data := wd } (vec (fun i => A i tt) [])
        let (_, q) ← vecAdd q w q
        return (w, q)) (vecOf w [], vec (0 : Fin r → ℝ) [])).sat fun s =>
          (∃ x : Fin r → XR, s.1 = vecOf x []) ∧ s.2 = vec (∑ g ∈ Finset.Iio tt,
            fun i => gsCol A g i * (((fun i => A i tt) ⬝ᵥ gsCol A g) / (gsCol A g ⬝ᵥ gsCol A g))) [] := by
      refine (forN_sat (fun g (s : Vec XR × Vec XR) => (∃ x : Fin r → XR, s.1 = vecOf x []) ∧
        s.2 = vec (∑ g ∈ Finset.univ.filter (fun j : Fin c => j.val < g),
            fun i => gsCol A g i * (((fun i => A i tt) ⬝ᵥ gsCol A g) / (gsCol A g ⬝ᵥ gsCol A g))) []) ?_ ?_).mono ?_
      · exact ⟨⟨_, rfl⟩, by simp⟩
      · rintro g hg ⟨w, q⟩ ⟨⟨w, rfl⟩, hq⟩
        dsimp only at hq ⊢
        subst hq
        obtain ⟨gg, rfl⟩ : ∃ gg : Fin c, gg.val = g := ⟨⟨g, by omega⟩, rfl⟩
        rw [show (vecOf w []).data = arrOf w [] from rfl, mtx_get_col_correct, ok_bind]
        dsimp only
        have hcol : (fun i => colsUpTo G B tt i gg) = fun i => XR.fin (gsCol A gg i) := by
          funext i
          simp only [colsUpTo, Matrix.of_apply]
          rw [if_pos hg]
          rfl
        rw [hcol, show ({ sz := (vecOf w []).sz, data := arrOf (fun i => XR.fin (gsCol A gg i)) [] } : Vec XR) =
          vec (gsCol A gg) [] from rfl, vecProjectOnto_vec _ _ _ _ (hne gg), ok_bind]
        dsimp only
        rw [vec_eq_vecOf (∑ g ∈ _, _), ← vec_eq_vecOf]
        conv => 
          enter [1, 1]
          arg 3
          rw [vec_eq_vecOf]
        rw [vecAdd_vec, ok_bind]
        dsimp only
        rw [pure_eq, sat_ok]
        refine ⟨⟨_, vec_eq_vecOf _ _⟩, ?_⟩
        dsimp only
        congr 1
        have h : Finset.univ.filter (fun j : Fin c => j.val < gg.val + 1) =
            insert gg (Finset.univ.filter (fun j : Fin c => j.val < gg.val)) := by
          ext i
          simp only [Finset.mem_filter, Finset.mem_univ, true_and, Finset.mem_insert, Fin.ext_iff]
          omega
        rw [h, Finset.sum_insert (by simp), add_comm]
      · rintro ⟨w, q⟩ ⟨hw, hq⟩
        refine ⟨hw, ?_⟩
        dsimp only at hq ⊢
        rw [hq]
        congr 2
        ext j
        simp
    obtain ⟨⟨w', q'⟩, hs1, ⟨w'', hw⟩, hq⟩ := hin
    dsimp only at hw hq
    subst hw hq
    rw [hs1, ok_bind]
    dsimp only
    conv =>
      enter [1, 1]
      arg 3
      rw [vec_eq_vecOf]
    rw [vecSub_vec, ok_bind]
    dsimp only
    rw [← gsCol_eq, vec_data, mtx_setCol, ok_bind]
    dsimp only
    rw [pure_eq, sat_ok]
    refine ⟨⟨_, vec_eq_vecOf _ _⟩, ⟨_, rfl⟩, ⟨_, vec_eq_vecOf _ _⟩, ?_⟩
    dsimp only
    rw [← colsUpTo_update]
    rfl
  · rintro ⟨v, w, q, mort⟩ ⟨_, _, _, hm⟩
    dsimp only at hm ⊢
    rw [hm, colsUpTo_all]

/-- C31. For a matrix with linearly independent columns `zsl_mtx_gram_schmidt` returns 0 and stores a matrix whose columns are pairwise
orthogonal and not zero, each of them differing from the input column by a combination of earlier output columns. -/
theorem mtx_gram_schmidt_correct (junk : ℕ → XR) (A : Matrix (Fin r) (Fin c) ℝ) (B : Matrix (Fin r) (Fin c) XR)
    (t u : List XR) (hr : 0 < r) (hA : LinearIndependent ℝ fun j i => A i j) :
    ∃ G : Matrix (Fin r) (Fin c) ℝ, mtxGramSchmidt junk (mat A t) (mtxOf B u) = ok (0, mat G u) ∧
      (∀ j k, j ≠ k → ∑ i, G i j * G i k = 0) ∧ (∀ j, ∃ i, G i j ≠ 0) ∧
      ∃ a : Fin c → Fin c → ℝ, ∀ j i, A i j = G i j + ∑ k ∈ Finset.Iio j, a j k * G i k := by
  refine ⟨_, mtx_gram_schmidt_eq junk A B t u hr hA, fun j k h => gsCol_orthogonal A h,
    fun j => Function.ne_iff.1 (gsCol_ne_zero A hA j),
    fun j g => ((fun i => A i j) ⬝ᵥ gsCol A g) / (gsCol A g ⬝ᵥ gsCol A g), fun j i => ?_⟩
  have h := congrFun (gsCol_eq A j) i
  rw [Pi.sub_apply, Finset.sum_apply] at h
  rw [Matrix.of_apply, h]
  simp only [Matrix.of_apply]
  rw [sub_add_eq_add_sub, eq_sub_iff_add_eq]
  congr 1
  exact Finset.sum_congr rfl fun g _ => mul_comm _ _

/-- C31. `zsl_mtx_cols_norm` turns every non-zero column into the unit vector of the same direction, and a zero column into the first
unit vector. -/
theorem mtx_cols_norm_correct (junk : ℕ → XR) (A : Matrix (Fin (r + 1)) (Fin c) ℝ) (B : Matrix (Fin (r + 1)) (Fin c) XR)
    (t u : List XR) :
    ∃ G : Matrix (Fin (r + 1)) (Fin c) ℝ, mtxColsNorm junk (mat A t) (mtxOf B u) = ok (0, mat G u) ∧
      (∀ j, ∑ i, G i j ^ 2 = 1) ∧
      (∀ j, (∃ i, A i j ≠ 0) → ∃ s : ℝ, 0 < s ∧ ∀ i, G i j = s * A i j) ∧
      (∀ j, (∀ i, A i j = 0) → ∀ i, G i j = if i = 0 then 1 else 0) := by
  set G : Matrix (Fin (r + 1)) (Fin c) ℝ := Matrix.of fun i j => unitOf (fun i => A i j) i with hG
  refine ⟨G, ?_, fun j => unitOf_norm _, ?_, ?_⟩
  · unfold mtxColsNorm
    rw [if_neg (by simp)]
    simp only [mat_rows, mat_cols, vecUninit_eq]
    suffices h : (forN c (fun g (s : Vec XR × Mtx XR) => do
        let (v, mnorm) := s
        let (_, vd) ← mtxGetCol (mat A t) g v.data
        let (_, v) ← vecToUnit { v with data := vd }
        let (_, mnorm) ← mtxSetCol mnorm g v.data
        return (v, mnorm)) (vecOf (fun i : Fin (r + 1) => junk i) [], mtxOf B u)).sat fun s => s.2 = mat G u by
      obtain ⟨s, hs, h2⟩ := h
      rw [hs, ok_bind, h2]
      rfl
    refine (forN_sat (fun t' s => (∃ x : Fin (r + 1) → XR, s.1 = vecOf x []) ∧
      s.2 = mtxOf (colsUpTo G B t') u) ?_ ?_).mono ?_
    · exact ⟨⟨_, rfl⟩, by rw [colsUpTo_zero]⟩
    · rintro t' ht' ⟨v, mort⟩ ⟨⟨v, rfl⟩, hm⟩
      dsimp only at hm ⊢
      subst hm
      obtain ⟨tt, rfl⟩ : ∃ tt : Fin c, tt.val = t' := ⟨⟨t', ht'⟩, rfl⟩
      rw [show (vecOf v []).data = arrOf v [] from rfl, mat_getCol, ok_bind]
      dsimp only
      rw [show ({ sz := (vecOf v []).sz, data := arr (fun i => A i tt) [] } : Vec XR) = vec (fun i => A i tt) [] from rfl,
        vecToUnit_vec, ok_bind]
      dsimp only
      rw [vec_data, mtx_setCol, ok_bind]
      dsimp only
      rw [pure_eq, sat_ok]
      refine ⟨⟨_, vec_eq_vecOf _ _⟩, ?_⟩
      dsimp only
      rw [← colsUpTo_update]
      rfl
    · rintro ⟨v, mort⟩ ⟨_, hm⟩
      dsimp only at hm ⊢
      rw [hm, colsUpTo_all]
  · rintro j ⟨i, hi⟩
    have hx : (fun i => A i j) ≠ 0 := fun h => hi (congrFun h i)
    refine ⟨1 / Real.sqrt ((fun i => A i j) ⬝ᵥ fun i => A i j), by
      rw [one_div]
      exact inv_pos.2 (Real.sqrt_pos.2 (dotProduct_self_pos' hx)), fun i => ?_⟩
    rw [hG, Matrix.of_apply, unitOf, if_neg hx, mul_comm]
  · intro j hj i
    have hx : (fun i => A i j) = 0 := funext hj
    rw [hG, Matrix.of_apply, unitOf, if_pos hx, Pi.single_apply]

/-- Non-vacuity: a matrix with independent columns. -/
example (junk : ℕ → XR) : ∃ G : Matrix (Fin 2) (Fin 2) ℝ,
    mtxGramSchmidt junk (mat !![1, 1; 0, 1] []) (mat (0 : Matrix (Fin 2) (Fin 2) ℝ) []) = ok (0, mat G []) := by
  obtain ⟨G, h, _⟩ := mtx_gram_schmidt_correct junk !![1, 1; 0, 1] ((0 : Matrix (Fin 2) (Fin 2) ℝ).map XR.fin) [] [] (by norm_num) (by
    rw [Fintype.linearIndependent_iff]
    intro g hg
    have h0 := congrFun hg 0
    have h1 := congrFun hg 1
    simp [Fin.sum_univ_two] at h0 h1
    intro i
    fin_cases i <;> simp <;> linarith)
  exact ⟨G, h⟩

end Verif
