import Verif.Props.Vectors2
import Verif.Props.Matrices2

/-! # Vector operations on real vectors, as equations -/

namespace Verif

open Out

variable {n r c : ℕ}

theorem vec_is (x : Fin n → ℝ) (t : List XR) : (vec x t).Is x := by
  unfold vec arr
  refine Vec.is_of_append ?_
  rw [List.map_ofFn]
  rfl

theorem vec_wf (x : Fin n → ℝ) (t : List XR) : (vec x t).WF := (vec_is x t).wf

@[simp] theorem vec_sz (x : Fin n → ℝ) (t : List XR) : (vec x t).sz = n := rfl

theorem vec_data (x : Fin n → ℝ) (t : List XR) : (vec x t).data = arr x t := rfl

theorem vec_drop (x : Fin n → ℝ) (t : List XR) : (vec x t).data.drop n = t := by
  unfold vec arr
  simp

theorem vec_vals (x : Fin n → ℝ) (t : List XR) : (vec x t).vals = List.ofFn fun i => XR.fin (x i) := by
  unfold vec arr Vec.vals
  simp

theorem vec_ext (x : Fin n → ℝ) (t : List XR) (d : List XR) (h : d = List.ofFn fun i => XR.fin (x i)) :
    (⟨n, d ++ t⟩ : Vec XR) = vec x t := by
  subst h
  rfl

/-- A vector buffer of size `n` with arbitrary contents. -/
def vecOf {R : Type} (x : Fin n → R) (t : List R) : Vec R := ⟨n, arrOf x t⟩

theorem vec_eq_vecOf (x : Fin n → ℝ) (t : List XR) : vec x t = vecOf (fun i => XR.fin (x i)) t := rfl

theorem vecOf_wf {R : Type} (x : Fin n → R) (t : List R) : (vecOf x t).WF := by
  unfold vecOf arrOf Vec.WF
  simp

@[simp] theorem vecOf_sz {R : Type} (x : Fin n → R) (t : List R) : (vecOf x t).sz = n := rfl

theorem vecOf_drop {R : Type} (x : Fin n → R) (t : List R) : (vecOf x t).data.drop n = t := by
  unfold vecOf arrOf
  simp

theorem vecUninit_eq {R : Type} (junk : ℕ → R) (n : ℕ) : Vec.uninit junk n = vecOf (fun i : Fin n => junk i) [] := by
  unfold Vec.uninit vecOf arrOf
  rw [List.append_nil]
  congr 1
  apply List.ext_getElem <;> simp

theorem junkArr_eq {R : Type} (junk : ℕ → R) (n : ℕ) : junkArr junk n = arrOf (fun i : Fin n => junk i) [] := by
  unfold junkArr arrOf
  rw [List.append_nil]
  apply List.ext_getElem <;> simp

theorem zipWith_ofFn {α β γ : Type} (f : α → β → γ) (x : Fin n → α) (y : Fin n → β) :
    List.zipWith f (List.ofFn x) (List.ofFn y) = List.ofFn fun i => f (x i) (y i) := by
  apply List.ext_getElem <;> simp

theorem vecInit_vec (x : Fin n → XR) (t : List XR) : vecInit (vecOf x t) = ok (0, vec (0 : Fin n → ℝ) t) := by
  rw [vec_init_correct _ (vecOf_wf x t), vecOf_sz, vecOf_drop, vec_ext]
  rw [XR.lit_eq]
  apply List.ext_getElem <;> simp

theorem vecAdd_vec (x y : Fin n → ℝ) (z : Fin n → XR) (t u w : List XR) :
    vecAdd (vec x t) (vec y u) (vecOf z w) = ok (0, vec (x + y) w) := by
  rw [vec_add_correct _ _ _ (vec_wf x t) (vec_wf y u) (vecOf_wf z w)]
  simp only [vec_sz, vecOf_sz, and_self, if_true]
  rw [vec_vals, vec_vals, vecOf_drop, zipWith_ofFn, vec_ext]
  simp

theorem vecSub_vec (x y : Fin n → ℝ) (z : Fin n → XR) (t u w : List XR) :
    vecSub (vec x t) (vec y u) (vecOf z w) = ok (0, vec (x - y) w) := by
  rw [vec_sub_correct _ _ _ (vec_wf x t) (vec_wf y u) (vecOf_wf z w)]
  simp only [vec_sz, vecOf_sz, and_self, if_true]
  rw [vec_vals, vec_vals, vecOf_drop, zipWith_ofFn, vec_ext]
  simp

theorem vecScalarMult_vec (x : Fin n → ℝ) (s : ℝ) (t : List XR) :
    vecScalarMult (vec x t) (XR.fin s) = ok (0, vec (fun i => x i * s) t) := by
  rw [vec_scalar_mult_correct _ _ (vec_wf x t), vec_sz, vec_drop, vec_vals, vec_ext]
  rw [List.map_ofFn]
  rfl

theorem vecScalarDiv_vec (x : Fin n → ℝ) (s : ℝ) (t : List XR) (hs : s ≠ 0) :
    vecScalarDiv (vec x t) (XR.fin s) = ok (0, vec (fun i => x i / s) t) := by
  rw [vec_scalar_div_correct _ _ (vec_wf x t)]
  rw [if_neg (by simpa using hs), vec_sz, vec_drop, vec_vals, vec_ext]
  rw [List.map_ofFn]
  congr 1
  funext i
  simp [XR.fin_div, hs]

theorem vecScalarDiv_zero (v : Vec XR) (hv : v.WF) :
    vecScalarDiv v (XR.fin 0) = ok (-EINVAL, v) := by
  rw [vec_scalar_div_correct _ _ hv, if_pos (by simp)]

theorem vecNeg_vec (x : Fin n → ℝ) (t : List XR) : vecNeg (vec x t) = ok (0, vec (-x) t) := by
  rw [vec_neg_correct _ (vec_wf x t), vec_sz, vec_drop, vec_vals, vec_ext]
  rw [List.map_ofFn]
  rfl

theorem vecNorm_vec (x : Fin n → ℝ) (t : List XR) :
    vecNorm (vec x t) = ok (XR.fin (Real.sqrt (x ⬝ᵥ x))) := vec_norm_correct _ x (vec_is x t)

theorem vecDot_vec (x y : Fin n → ℝ) (t u : List XR) (d : XR) :
    vecDot (vec x t) (vec y u) d = ok (0, XR.fin (x ⬝ᵥ y)) := vec_dot_correct _ _ x y d (vec_is x t) (vec_is y u)

theorem vecCopy_vec {R : Type} [CReal R] (x y : Fin n → R) (t u : List R) :
    vecCopy (vecOf y u) (vecOf x t) = ok (0, vecOf x u) := by
  rw [vec_copy_correct _ _ (vecOf_wf x t) (vecOf_wf y u), vecOf_sz, vecOf_drop]
  congr 2
  unfold vecOf arrOf Vec.vals
  simp

theorem vecProjectOnto_vec (x y : Fin n → ℝ) (t u : List XR) (hx : x ⬝ᵥ x ≠ 0) :
    vecProjectOnto (vec x t) (vec y u) = ok (0, vec (fun i => x i * ((y ⬝ᵥ x) / (x ⬝ᵥ x))) t) := by
  unfold vecProjectOnto
  rw [if_neg (by simp)]
  rw [vecDot_vec, ok_bind]
  simp only
  rw [vecDot_vec, ok_bind]
  simp only
  rw [XR.fin_div hx, vecScalarMult_vec, ok_bind]
  rfl

/-- The unit vector of the direction of `x`, and the first unit vector for `x = 0`. -/
noncomputable def unitOf (x : Fin (n + 1) → ℝ) : Fin (n + 1) → ℝ :=
  open Classical in if x = 0 then Pi.single 0 1 else fun i => x i * (1 / Real.sqrt (x ⬝ᵥ x))

theorem vecToUnit_vec (x : Fin (n + 1) → ℝ) (t : List XR) : vecToUnit (vec x t) = ok (0, vec (unitOf x) t) := by
  unfold vecToUnit
  rw [vecNorm_vec, ok_bind]
  by_cases hx : x = 0
  · subst hx
    rw [if_neg (by simp), vec_eq_vecOf, vecInit_vec, ok_bind]
    dsimp only
    rw [vec_data, unitOf, if_pos rfl, wr_lt _ (by simp [arr]), ok_bind]
    congr 2
    unfold vec
    congr 1
    unfold arr
    rw [List.ofFn_succ, List.ofFn_succ]
    simp
  · have hs := Real.sqrt_pos.2 (dotProduct_self_pos' hx)
    rw [if_pos (by simpa using hs.ne'), XR.lit_eq, XR.fin_div hs.ne', vecScalarMult_vec, ok_bind, unitOf, if_neg hx]
    simp

theorem unitOf_norm (x : Fin (n + 1) → ℝ) : ∑ i, unitOf x i ^ 2 = 1 := by
  unfold unitOf
  split_ifs with hx
  · simp [Pi.single_apply, ite_pow]
  · have hpos := dotProduct_self_pos' hx
    simp only [mul_pow, ← Finset.sum_mul]
    rw [div_pow, Real.sq_sqrt hpos.le, one_pow]
    have : ∑ i, x i ^ 2 = x ⬝ᵥ x := by
      simp [dotProduct, pow_two]
    rw [this, mul_one_div, div_self hpos.ne']

/-! ### Columns and rows of real matrices -/

theorem mat_getCol (A : Matrix (Fin r) (Fin c) ℝ) (t : List XR) (y : Fin r → XR) (u : List XR) (j : Fin c) :
    mtxGetCol (mat A t) j (arrOf y u) = ok (0, arr (fun i => A i j) u) := by
  unfold mat
  rw [mtxOf_eq, mkM_getCol _ _ _ j.2 (by simp [arrOf])]
  congr 2
  unfold arr arrOf
  congr 1
  · refine range_map_eq_ofFn fun i => ?_
    rw [ext_lt _ i.2 j.2]
    rfl
  · simp

theorem mtx_setCol (B : Matrix (Fin r) (Fin c) XR) (t : List XR) (x : Fin r → ℝ) (u : List XR) (j : Fin c) :
    mtxSetCol (mtxOf B t) j (arr x u) = ok (0, mtxOf (B.updateCol j fun i => XR.fin (x i)) t) := by
  rw [mtxOf_eq, mkM_setCol _ _ _ (fun i => if h : i < r then XR.fin (x ⟨i, h⟩) else lit 0) j.2]
  · congr 2
    refine mkM_eq_mtxOf (r := r) (c := c) _ fun a b => ?_
    rw [dif_pos a.2, ext_lt _ a.2 b.2, Matrix.updateCol_apply]
    exact if_congr (by rw [Fin.ext_iff]) rfl rfl
  · intro i hi
    rw [dif_pos hi]
    exact (vec_is x u).rd ⟨i, hi⟩

end Verif
