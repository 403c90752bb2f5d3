import Verif.Props.Calib4
import Verif.Spec.Fusion
import Mathlib.Analysis.SpecialFunctions.Sqrt

/-!
# Calibration of the magnetometer: readings that are symmetric about the origin (C110)
-/

namespace Verif

open Out Matrix

variable {n : ℕ}

/-! ## One step of the fit when an entry of the Jacobian vanishes -/

theorem mat_wr {r c : ℕ} (A : Matrix (Fin r) (Fin c) ℝ) (t : List XR) (k : ℕ) (i : Fin r) (j : Fin c) (hk : k = i * c + j) (x : ℝ) :
    wr (mat A t).data k (XR.fin x) = ok (mat (Matrix.of fun a b => if a = i ∧ b = j then x else A a b) t).data := by
  unfold mat
  rw [mtxOf_eq, mtxOf_eq, mkM_data, mkM_data, hk, mkD_wr _ _ _ i.2 j.2]
  refine congrArg ok (mkD_congr fun a ha b hb => ?_)
  rw [ext_lt _ ha hb, Matrix.map_apply, Matrix.of_apply]
  unfold upd
  rw [ext_lt _ ha hb, Matrix.map_apply]
  by_cases h : a = i ∧ b = j
  · rw [if_pos h, if_pos (by simpa [Fin.ext_iff] using h)]
  · rw [if_neg h, if_neg (by simpa [Fin.ext_iff] using h)]

/-- Only the diagonal of the work matrix is overwritten. -/
theorem calDamp_eq (l : ℝ) (A B : Matrix (Fin n) (Fin n) ℝ) :
    calDamp n (XR.fin l) (mat A []) (mat B []) = ok (mat (Matrix.of fun i j => if i = j then l * A i i else B i j) []) := by
  have key : forN n (fun k d => do
      let x ← rd (mat A []).data (k * (n + 1))
      wr d (k * (n + 1)) (XR.fin l * x)) (mat B []).data =
      ok (mat (Matrix.of fun i j : Fin n => if i = j ∧ i.val < n then l * A i i else B i j) []).data := by
    refine forN_eq (fun k => (mat (Matrix.of fun i j : Fin n => if i = j ∧ i.val < k then l * A i i else B i j) []).data) ?_ fun k hk => ?_
    · refine congrArg (fun M => (mat M []).data) ?_
      ext i j
      simp
    · rw [mat_rd A [] _ ⟨k, hk⟩ ⟨k, hk⟩ (by dsimp only; ring), ok_bind, XR.fin_mul, mat_wr _ [] _ ⟨k, hk⟩ ⟨k, hk⟩ (by dsimp only; ring)]
      refine congrArg (fun M => ok (mat M []).data) ?_
      ext i j
      simp only [Matrix.of_apply]
      by_cases hij : i = j
      · subst hij
        by_cases hi : i = ⟨k, hk⟩
        · subst hi
          simp
        · have : i.val ≠ k := fun h => hi (Fin.ext h)
          rw [if_neg (by simp [hi])]
          by_cases hlt : i.val < k
          · rw [if_pos ⟨rfl, hlt⟩, if_pos ⟨rfl, by omega⟩]
          · rw [if_neg (by simp [hlt]), if_neg (by simp; omega)]
      · rw [if_neg (by rintro ⟨rfl, rfl⟩; exact hij rfl), if_neg (by simp [hij]), if_neg (by simp [hij])]
  unfold calDamp
  rw [key, ok_bind, pure_eq]
  refine congrArg ok ?_
  have : (Matrix.of fun i j : Fin n => if i = j ∧ i.val < n then l * A i i else B i j) =
      Matrix.of fun i j : Fin n => if i = j then l * A i i else B i j := by
    ext i j
    simp
  rw [this]
  rfl

/-- The "inverse" of a singular matrix is the identity. -/
theorem mtxInv_singular (junk : ℕ → XR) (A B : Matrix (Fin n) (Fin n) ℝ) (hn : 0 < n) (h3 : n ≠ 3) (hdet : A.det = 0) :
    mtxInv junk (mat A []) (mat B []) = ok (0, mat (1 : Matrix (Fin n) (Fin n) ℝ) []) := by
  obtain ⟨M₀, hM₀⟩ := uninit_eq junk n n
  have hcopy : mtxCopy (Mtx.uninit junk n n) (mat A []) = ok (0, mat A []) := by
    rw [hM₀]
    exact mtx_copy_correct _ _ _ _
  unfold mtxInv
  rw [if_neg (by simpa using h3), if_neg (by simp), if_neg (by simp), if_neg (by simp), if_neg (by simp; omega), mat_rows, mat_cols, hcopy,
    ok_bind]
  dsimp only
  rw [if_neg (by simp), mtx_init_identity_real, ok_bind]
  dsimp only
  obtain ⟨n', rfl⟩ := Nat.exists_eq_succ_of_ne_zero hn.ne'
  rw [if_neg (by simp), mtx_deter_correct, ok_bind]
  dsimp only
  rw [if_pos (by rw [hdet]; simp)]
  rfl

/-- When an entry of the Jacobian is zero the damped normal matrix is singular, and the step is the residual times the Jacobian: a step of
steepest descent of length one, whatever the damping. -/
theorem calTau_singular (junk : ℕ → XR) (hn : 0 < n) (h3 : n ≠ 3) (l r : ℝ) (J : Fin n → ℝ) (k : Fin n) (hk : J k = 0) :
    calTau junk n (XR.fin l) (mat (Matrix.of fun _ : Fin 1 => J) []) (mat (1 : Matrix (Fin n) (Fin n) ℝ) []) (XR.fin r) =
      ok (mat (1 : Matrix (Fin n) (Fin n) ℝ) [], mat (Matrix.of fun i (_ : Fin 1) => r * J i) []) := by
  obtain ⟨U1, hU1⟩ := uninit_eq junk n 1
  obtain ⟨U2, hU2⟩ := uninit_eq junk n n
  unfold calTau
  rw [hU1, mtx_trans_real _ _ _ _ _ hn, ok_bind]
  dsimp only
  rw [hU2, mtx_mult_correct, ok_bind]
  dsimp only
  rw [calDamp_eq, ok_bind, (mtx_add_sub_d_correct _ _ _ _).1, ok_bind]
  dsimp only
  rw [mtxInv_singular junk _ _ hn h3, ok_bind]
  · dsimp only
    rw [mtx_mult_correct, ok_bind]
    dsimp only
    rw [mtx_scalar_mult_correct, Matrix.one_mul]
    rfl
  · refine Matrix.det_eq_zero_of_row_eq_zero k fun j => ?_
    by_cases hkj : k = j
    · subst hkj
      simp [Matrix.mul_apply, hk]
    · simp [Matrix.mul_apply, hk, hkj]

/-! ## The two models for any parameters -/

theorem calFShp_val (junk : ℕ → XR) (p b : V3) (u : List XR) : calFShp junk (vec p []) (vec b u) = ok (XR.fin (len (p + b))) := by
  unfold calFShp
  rw [vecUninit_eq, vecAdd_vec, ok_bind]
  dsimp only
  rw [vecNorm_vec]
  rfl

/-- The soft iron matrix of nine parameters. -/
def softOf (g : Fin 9 → ℝ) : Matrix (Fin 3) (Fin 3) ℝ := !![g 0, g 1, g 2; g 1, g 3, g 4; g 2, g 4, g 5]

/-- The hard iron vector of nine parameters. -/
def hardOf (g : Fin 9 → ℝ) : V3 := ![g 6, g 7, g 8]

theorem calSym_eq (g : Fin 9 → ℝ) : calSym (arr g []) = ok (mat (softOf g) []).data := rfl

theorem calFElli_val (junk : ℕ → XR) (p : V3) (g : Fin 9 → ℝ) :
    calFElli junk (vec p []) (arr g []) = ok (XR.fin (len (softOf g *ᵥ (p + hardOf g)))) := by
  obtain ⟨U, hU⟩ := uninit_eq junk 3 1
  have h0 : rd (vec p []).data 0 = ok (XR.fin (p 0)) := rfl
  have h1 : rd (vec p []).data 1 = ok (XR.fin (p 1)) := rfl
  have h2 : rd (vec p []).data 2 = ok (XR.fin (p 2)) := rfl
  have g6 : rd (arr g []) 6 = ok (XR.fin (g 6)) := rfl
  have g7 : rd (arr g []) 7 = ok (XR.fin (g 7)) := rfl
  have g8 : rd (arr g []) 8 = ok (XR.fin (g 8)) := rfl
  unfold calFElli
  rw [calSym_eq, ok_bind, h0, ok_bind, h1, ok_bind, h2, ok_bind, g6, ok_bind, g7, ok_bind, g8, ok_bind]
  simp only [XR.fin_add]
  rw [show (⟨3, 3, (mat (softOf g) []).data⟩ : Mtx XR) = mat (softOf g) [] from rfl,
    show (⟨3, 1, [XR.fin (p 0 + g 6), XR.fin (p 1 + g 7), XR.fin (p 2 + g 8)]⟩ : Mtx XR) = mat (colOf (p + hardOf g)) [] from rfl,
    hU, mtx_mult_correct, ok_bind]
  dsimp only
  rw [show softOf g * colOf (p + hardOf g) = colOf (softOf g *ᵥ (p + hardOf g)) from rfl, colOf_data, vecUninit_eq, vecFromArr_vec, ok_bind]
  dsimp only
  rw [vecNorm_vec]
  rfl

theorem sum_upto {M : Type} [AddCommMonoid M] (f : Fin n → M) {k : ℕ} (hk : k < n) :
    (∑ i : Fin n, if i.val < k + 1 then f i else 0) = (∑ i : Fin n, if i.val < k then f i else 0) + f ⟨k, hk⟩ := by
  have h1 : f ⟨k, hk⟩ = ∑ i : Fin n, if i = ⟨k, hk⟩ then f i else 0 := by simp
  rw [h1, ← Finset.sum_add_distrib]
  refine Finset.sum_congr rfl fun i _ => ?_
  by_cases hi : i = ⟨k, hk⟩
  · subst hi
    simp
  · have : i.val ≠ k := fun h => hi (Fin.ext h)
    by_cases hlt : i.val < k
    · rw [if_pos (by omega), if_pos hlt, if_neg hi, add_zero]
    · rw [if_neg (by omega), if_neg hlt, if_neg hi, add_zero]

/-- What the sphere fit adds up for one reading. -/
noncomputable def shpTerm (b p : V3) : Fin 4 → ℝ := ![1, -(p 0 - b 0) / len (p + b), -(p 1 - b 1) / len (p + b), -(p 2 - b 2) / len (p + b)]

/-- C110: what the sphere fit uses as gradient. -/
theorem calJacShp_val (junk : ℕ → XR) (P : Matrix (Fin n) (Fin 3) ℝ) (b : V3) (t u : List XR) (h : ∀ i, len (P i + b) ≠ 0) :
    calJacShp junk (mat P t) (vec b u) = ok (arr (∑ i, shpTerm b (P i)) []) := by
  have key : calJacShp junk (mat P t) (vec b u) =
      ok (arr (∑ i : Fin n, if i.val < n then shpTerm b (P i) else 0) []) := by
    unfold calJacShp
    rw [mat_rows]
    refine forN_eq (fun k => arr (∑ i : Fin n, if i.val < k then shpTerm b (P i) else 0) []) ?_ fun k hk => ?_
    · simp [arr]
    · have hs : (∑ i : Fin n, if i.val < k + 1 then shpTerm b (P i) else 0) =
          (∑ i : Fin n, if i.val < k then shpTerm b (P i) else 0) + shpTerm b (P ⟨k, hk⟩) :=
        sum_upto _ hk
      rw [hs]
      generalize (∑ i : Fin n, if i.val < k then shpTerm b (P i) else 0) = x
      have h0 : rd (vec (P ⟨k, hk⟩) []).data 0 = ok (XR.fin (P ⟨k, hk⟩ 0)) := rfl
      have h1 : rd (vec (P ⟨k, hk⟩) []).data 1 = ok (XR.fin (P ⟨k, hk⟩ 1)) := rfl
      have h2 : rd (vec (P ⟨k, hk⟩) []).data 2 = ok (XR.fin (P ⟨k, hk⟩ 2)) := rfl
      have b0 : rd (vec b u).data 0 = ok (XR.fin (b 0)) := rfl
      have b1 : rd (vec b u).data 1 = ok (XR.fin (b 1)) := rfl
      have b2 : rd (vec b u).data 2 = ok (XR.fin (b 2)) := rfl
      have j0 : rd (arr x []) 0 = ok (XR.fin (x 0)) := rfl
      have j1 : rd (arr x []) 1 = ok (XR.fin (x 1)) := rfl
      have j2 : rd (arr x []) 2 = ok (XR.fin (x 2)) := rfl
      have j3 : rd (arr x []) 3 = ok (XR.fin (x 3)) := rfl
      rw [show calRow junk (mat P t) k = ok (vec (P ⟨k, hk⟩) []) from calRow_mat junk P t ⟨k, hk⟩, ok_bind, calFShp_val, ok_bind,
        h0, ok_bind, h1, ok_bind, h2, ok_bind, b0, ok_bind, b1, ok_bind, b2, ok_bind, j0, ok_bind, j1, ok_bind, j2, ok_bind, j3, ok_bind,
        pure_eq, XR.lit_eq]
      simp only [XR.fin_sub, XR.fin_neg, XR.fin_div (h ⟨k, hk⟩), XR.fin_add]
      simp [arr, List.ofFn_succ, shpTerm]
  rw [key]
  simp

/-- What the ellipsoid fit adds up for one reading: `p` is the reading with the offset, `a` the matrix applied to it and `f` the length. -/
noncomputable def elliRow (p a : V3) (f : ℝ) : Fin 9 → ℝ :=
  ![-(p 0) * a 0 / f, -(p 1) * a 1 / f, -(p 2) * a 2 / f, -(p 1 * a 0 + p 0 * a 1) / f, -(p 2 * a 0 + p 0 * a 2) / f,
    -(p 2 * a 1 + p 1 * a 2) / f, -(a 0) / f, -(a 1) / f, -(a 2) / f]

/-- What the ellipsoid fit adds up for the reading `p` with the parameters `g` and the offset `b` of the sphere fit. -/
noncomputable def elliTerm (g : Fin 9 → ℝ) (b p : V3) : Fin 9 → ℝ :=
  elliRow (p + b) (softOf g *ᵥ (p + b)) (len (softOf g *ᵥ (p + hardOf g)))

/-- C110: what the ellipsoid fit uses as gradient. -/
theorem calJacElli_val (junk : ℕ → XR) (P : Matrix (Fin n) (Fin 3) ℝ) (g : Fin 9 → ℝ) (b : V3) (t u : List XR)
    (h : ∀ i, len (softOf g *ᵥ (P i + hardOf g)) ≠ 0) :
    calJacElli junk (mat P t) (arr g []) (vec b u).data = ok (arr (∑ i, elliTerm g b (P i)) []) := by
  have key : calJacElli junk (mat P t) (arr g []) (vec b u).data =
      ok (arr (∑ i : Fin n, if i.val < n then elliTerm g b (P i) else 0) []) := by
    unfold calJacElli
    rw [mat_rows]
    refine forN_eq (fun k => arr (∑ i : Fin n, if i.val < k then elliTerm g b (P i) else 0) []) ?_ fun k hk => ?_
    · simp [arr, List.ofFn_succ]
    · have hs : (∑ i : Fin n, if i.val < k + 1 then elliTerm g b (P i) else 0) =
          (∑ i : Fin n, if i.val < k then elliTerm g b (P i) else 0) + elliTerm g b (P ⟨k, hk⟩) :=
        sum_upto _ hk
      rw [hs]
      generalize (∑ i : Fin n, if i.val < k then elliTerm g b (P i) else 0) = x
      have h0 : rd (vec (P ⟨k, hk⟩) []).data 0 = ok (XR.fin (P ⟨k, hk⟩ 0)) := rfl
      have h1 : rd (vec (P ⟨k, hk⟩) []).data 1 = ok (XR.fin (P ⟨k, hk⟩ 1)) := rfl
      have h2 : rd (vec (P ⟨k, hk⟩) []).data 2 = ok (XR.fin (P ⟨k, hk⟩ 2)) := rfl
      have b0 : rd (vec b u).data 0 = ok (XR.fin (b 0)) := rfl
      have b1 : rd (vec b u).data 1 = ok (XR.fin (b 1)) := rfl
      have b2 : rd (vec b u).data 2 = ok (XR.fin (b 2)) := rfl
      have j : ∀ m : Fin 9, rd (arr g []) m = ok (XR.fin (g m)) := fun m => arrOf_rd _ [] m.2
      have j' : ∀ m : Fin 9, rd (arr x []) m = ok (XR.fin (x m)) := fun m => arrOf_rd _ [] m.2
      have g0 : rd (arr g []) 0 = ok (XR.fin (g 0)) := rfl
      have g1 : rd (arr g []) 1 = ok (XR.fin (g 1)) := rfl
      have g2 : rd (arr g []) 2 = ok (XR.fin (g 2)) := rfl
      have g3 : rd (arr g []) 3 = ok (XR.fin (g 3)) := rfl
      have g4 : rd (arr g []) 4 = ok (XR.fin (g 4)) := rfl
      have g5 : rd (arr g []) 5 = ok (XR.fin (g 5)) := rfl
      have j0 : rd (arr x []) 0 = ok (XR.fin (x 0)) := rfl
      have j1 : rd (arr x []) 1 = ok (XR.fin (x 1)) := rfl
      have j2 : rd (arr x []) 2 = ok (XR.fin (x 2)) := rfl
      have j3 : rd (arr x []) 3 = ok (XR.fin (x 3)) := rfl
      have j4 : rd (arr x []) 4 = ok (XR.fin (x 4)) := rfl
      have j5 : rd (arr x []) 5 = ok (XR.fin (x 5)) := rfl
      have j6 : rd (arr x []) 6 = ok (XR.fin (x 6)) := rfl
      have j7 : rd (arr x []) 7 = ok (XR.fin (x 7)) := rfl
      have j8 : rd (arr x []) 8 = ok (XR.fin (x 8)) := rfl
      rw [show calRow junk (mat P t) k = ok (vec (P ⟨k, hk⟩) []) from calRow_mat junk P t ⟨k, hk⟩, ok_bind, calFElli_val, ok_bind,
        h0, ok_bind, h1, ok_bind, h2, ok_bind, b0, ok_bind, b1, ok_bind, b2, ok_bind, g0, ok_bind, g1, ok_bind, g2, ok_bind, g3, ok_bind,
        g4, ok_bind, g5, ok_bind]
      dsimp only
      rw [j0, ok_bind, j1, ok_bind, j2, ok_bind, j3, ok_bind, j4, ok_bind, j5, ok_bind, j6, ok_bind, j7, ok_bind, j8, ok_bind, pure_eq]
      simp only [XR.fin_neg, XR.fin_mul, XR.fin_add, XR.fin_div (h ⟨k, hk⟩)]
      have ha : ∀ m : Fin 3, (softOf g *ᵥ (P ⟨k, hk⟩ + b)) m =
          softOf g m 0 * (P ⟨k, hk⟩ 0 + b 0) + softOf g m 1 * (P ⟨k, hk⟩ 1 + b 1) + softOf g m 2 * (P ⟨k, hk⟩ 2 + b 2) := by
        intro m
        simp [Matrix.mulVec, dotProduct, Fin.sum_univ_three]
      simp only [arr, List.ofFn_succ, List.ofFn_zero, elliTerm, elliRow, ha, Pi.add_apply]
      rfl
  rw [key]
  simp

/-! ## Readings that are symmetric about the origin -/

/-- With every reading its opposite is a reading. -/
def Symmetric0 (P : Matrix (Fin n) (Fin 3) ℝ) : Prop := ∃ σ : Equiv.Perm (Fin n), ∀ i, P (σ i) = -P i

theorem Symmetric0.sum_odd {P : Matrix (Fin n) (Fin 3) ℝ} (h : Symmetric0 P) (f : V3 → ℝ) (hf : ∀ p, f (-p) = -f p) : ∑ i, f (P i) = 0 := by
  obtain ⟨σ, hσ⟩ := h
  have h1 : ∑ i, f (P i) = ∑ i, f (P (σ i)) := (Equiv.sum_comp σ fun i => f (P i)).symm
  have h2 : ∑ i, f (P (σ i)) = -∑ i, f (P i) := by
    rw [← Finset.sum_neg_distrib]
    exact Finset.sum_congr rfl fun i _ => by rw [hσ, hf]
  linarith

theorem len_neg (v : V3) : len (-v) = len v := by
  unfold len
  rw [neg_dotProduct_neg]

theorem shp_sum {P : Matrix (Fin n) (Fin 3) ℝ} (h : Symmetric0 P) : ∑ i, shpTerm 0 (P i) = ![(n : ℝ), 0, 0, 0] := by
  have odd : ∀ k : Fin 3, ∑ i, -(P i k - (0 : V3) k) / len (P i + 0) = 0 := by
    intro k
    refine h.sum_odd (fun p => -(p k - (0 : V3) k) / len (p + 0)) fun p => ?_
    simp only [add_zero, len_neg, Pi.neg_apply, Pi.zero_apply, sub_zero]
    ring
  funext m
  rw [Finset.sum_apply]
  fin_cases m
  · simp [shpTerm]
  · exact odd 0
  · exact odd 1
  · exact odd 2

/-- The gradient that the ellipsoid fit uses at the parameters `g` when the hard iron vector is zero. -/
noncomputable def elliSum (P : Matrix (Fin n) (Fin 3) ℝ) (g : Fin 9 → ℝ) : Fin 9 → ℝ := ∑ i, elliTerm g 0 (P i)

theorem elli_sum {P : Matrix (Fin n) (Fin 3) ℝ} (h : Symmetric0 P) {g : Fin 9 → ℝ} (hg : hardOf g = 0) :
    elliSum P g 6 = 0 ∧ elliSum P g 7 = 0 ∧ elliSum P g 8 = 0 := by
  have odd : ∀ k : Fin 3, ∑ i, -((softOf g *ᵥ (P i + 0)) k) / len (softOf g *ᵥ (P i + hardOf g)) = 0 := by
    intro k
    refine h.sum_odd (fun p => -((softOf g *ᵥ (p + 0)) k) / len (softOf g *ᵥ (p + hardOf g))) fun p => ?_
    simp only [hg, add_zero, Matrix.mulVec_neg, len_neg, Pi.neg_apply]
    ring
  unfold elliSum
  simp only [Finset.sum_apply]
  exact ⟨odd 0, odd 1, odd 2⟩

/-- The radius after `j` steps of the sphere fit: each step adds the residual of one reading times the number of readings. -/
noncomputable def radiusSeq (P : Matrix (Fin n) (Fin 3) ℝ) (R₀ : ℝ) : ℕ → ℝ
  | 0 => R₀
  | j + 1 => if h : j < n then radiusSeq P R₀ j + n * (len (P ⟨j, h⟩) - radiusSeq P R₀ j) else radiusSeq P R₀ j

/-- The nine parameters after `j` steps of the ellipsoid fit: each step adds the residual of one reading times the gradient. -/
noncomputable def parmSeq (P : Matrix (Fin n) (Fin 3) ℝ) (ρ : ℝ) : ℕ → Fin 9 → ℝ
  | 0 => ![1, 0, 0, 1, 0, 1, 0, 0, 0]
  | j + 1 => if h : j < n then
      parmSeq P ρ j + (len (softOf (parmSeq P ρ j) *ᵥ P ⟨j, h⟩) - ρ) • elliSum P (parmSeq P ρ j)
    else parmSeq P ρ j

theorem parm_hard {P : Matrix (Fin n) (Fin 3) ℝ} (h : Symmetric0 P) (ρ : ℝ) (j : ℕ) : hardOf (parmSeq P ρ j) = 0 := by
  induction j with
  | zero =>
    ext k
    fin_cases k <;> rfl
  | succ j ih =>
    rw [parmSeq]
    split_ifs
    · obtain ⟨h6, h7, h8⟩ := elli_sum h ih
      have e : ∀ k : Fin 3, hardOf (parmSeq P ρ j) k = 0 := fun k => congrFun ih k
      have e0 : parmSeq P ρ j 6 = 0 := e 0
      have e1 : parmSeq P ρ j 7 = 0 := e 1
      have e2 : parmSeq P ρ j 8 = 0 := e 2
      ext k
      fin_cases k <;> simp [hardOf, h6, h7, h8, e0, e1, e2]
    · exact ih

theorem calLambda_real (j : ℕ) (S r l mu : ℝ) (hmu : mu ≠ 0) :
    ∃ S' l' : ℝ, calLambda j (XR.fin S) (XR.fin r) (XR.fin l) (XR.fin mu) = (XR.fin S', XR.fin l') := by
  unfold calLambda
  rw [XR.ofNat_eq, XR.ofNat_eq, XR.fin_mul, XR.fin_mul, XR.fin_add, XR.fin_div (by positivity), XR.fin_div hmu, XR.fin_mul]
  dsimp only
  split_ifs
  · exact ⟨_, _, rfl⟩
  · exact ⟨_, _, rfl⟩

theorem calSphere_sym (junk : ℕ → XR) {P : Matrix (Fin n) (Fin 3) ℝ} (h : Symmetric0 P) (hp : ∀ i, len (P i) ≠ 0) (ρ l S mu : ℝ) (hmu : mu ≠ 0)
    (t u : List XR) (j : ℕ) (hj : j < n) : ∃ S' l' : ℝ,
    calSphere junk (mat P t) (XR.fin mu) j ⟨XR.fin ρ, (vec (0 : V3) u).data, XR.fin l, XR.fin S, mat (1 : Matrix (Fin 4) (Fin 4) ℝ) []⟩ =
      ok ⟨XR.fin (ρ + n * (len (P ⟨j, hj⟩) - ρ)), (vec (0 : V3) u).data, XR.fin l', XR.fin S', mat (1 : Matrix (Fin 4) (Fin 4) ℝ) []⟩ := by
  have hJ := calJacShp_val junk P 0 t u (fun i => by rw [add_zero]; exact hp i)
  rw [shp_sum h] at hJ
  have hC := calTau_singular junk (n := 4) (by omega) (by omega) l (-(ρ - len (P ⟨j, hj⟩))) ![(n : ℝ), 0, 0, 0] 1 rfl
  have hb : (vec (0 : V3) u).data = XR.fin 0 :: XR.fin 0 :: XR.fin 0 :: u := rfl
  have hsz : szSub n 1 = n - 1 := by unfold szSub; rw [if_pos (by omega)]
  have hd : (mat (Matrix.of fun i (_ : Fin 1) => -(ρ - len (P ⟨j, hj⟩)) * ![(n : ℝ), 0, 0, 0] i) []).data =
      [XR.fin (n * (len (P ⟨j, hj⟩) - ρ)), XR.fin 0, XR.fin 0, XR.fin 0] := by
    have : (mat (Matrix.of fun i (_ : Fin 1) => -(ρ - len (P ⟨j, hj⟩)) * ![(n : ℝ), 0, 0, 0] i) []).data =
      [XR.fin (-(ρ - len (P ⟨j, hj⟩)) * n), XR.fin (-(ρ - len (P ⟨j, hj⟩)) * 0), XR.fin (-(ρ - len (P ⟨j, hj⟩)) * 0),
        XR.fin (-(ρ - len (P ⟨j, hj⟩)) * 0)] := rfl
    rw [this, mul_zero, show -(ρ - len (P ⟨j, hj⟩)) * (n : ℝ) = n * (len (P ⟨j, hj⟩) - ρ) by ring]
  have pre : calSphere junk (mat P t) (XR.fin mu) j ⟨XR.fin ρ, (vec (0 : V3) u).data, XR.fin l, XR.fin S, mat (1 : Matrix (Fin 4) (Fin 4) ℝ) []⟩ =
      if j < n - 1 then do
        let H ← calRow junk (mat P t) (j + 1)
        let f ← calFShp junk H (vec (0 : V3) u)
        let (S, l) := calLambda j (XR.fin S) (XR.fin (ρ + n * (len (P ⟨j, hj⟩) - ρ)) - f) (XR.fin l) (XR.fin mu)
        return ⟨XR.fin (ρ + n * (len (P ⟨j, hj⟩) - ρ)), (vec (0 : V3) u).data, l, S, mat (1 : Matrix (Fin 4) (Fin 4) ℝ) []⟩
      else return ⟨XR.fin (ρ + n * (len (P ⟨j, hj⟩) - ρ)), (vec (0 : V3) u).data, XR.fin l, XR.fin S, mat (1 : Matrix (Fin 4) (Fin 4) ℝ) []⟩ := by
    unfold calSphere
    dsimp only
    rw [show (⟨3, (vec (0 : V3) u).data⟩ : Vec XR) = vec (0 : V3) u from rfl, hJ, ok_bind,
      show calRow junk (mat P t) j = ok (vec (P ⟨j, hj⟩) []) from calRow_mat junk P t ⟨j, hj⟩, ok_bind, calFShp_val, ok_bind,
      XR.fin_sub, XR.fin_neg, add_zero,
      show (⟨1, 4, arr ![(n : ℝ), 0, 0, 0] []⟩ : Mtx XR) = mat (Matrix.of fun _ : Fin 1 => ![(n : ℝ), 0, 0, 0]) [] from rfl, hC, ok_bind]
    dsimp only
    rw [hd, hb]
    simp only [rd, List.getElem?_cons_zero, List.getElem?_cons_succ, ok_bind, XR.fin_add, add_zero, mat_rows, hsz]
    rfl
  rw [pre]
  by_cases hlast : j < n - 1
  · have hl : j + 1 < n := by omega
    rw [if_pos hlast, show calRow junk (mat P t) (j + 1) = ok (vec (P ⟨j + 1, hl⟩) []) from calRow_mat junk P t ⟨j + 1, hl⟩, ok_bind,
      calFShp_val, ok_bind, XR.fin_sub]
    obtain ⟨S', l', hL⟩ := calLambda_real j S (ρ + n * (len (P ⟨j, hj⟩) - ρ) - len (P ⟨j + 1, hl⟩ + 0)) l mu hmu
    rw [hL]
    exact ⟨S', l', rfl⟩
  · rw [if_neg hlast]
    exact ⟨S, l, rfl⟩

theorem add_loop {m : ℕ} (x y : Fin m → ℝ) :
    forN m (fun k d => do
      let x ← rd d k
      let y ← rd (mat (Matrix.of fun i (_ : Fin 1) => y i) []).data k
      wr d k (x + y)) (arr x []) = ok (arr (x + y) []) := by
  have hw : ∀ (z : Fin m → ℝ) (k : ℕ) (hk : k < m) (a : ℝ), wr (arr z []) k (XR.fin a) = ok (arr (fun i => if i.val = k then a else z i) []) := by
    intro z k hk a
    rw [wr_lt _ (by simp [arr, hk])]
    refine congrArg ok ?_
    apply List.ext_getElem
    · simp [arr]
    · intro i h1 h2
      rw [List.getElem_set]
      simp only [arr, List.append_nil, List.getElem_ofFn]
      by_cases hik : k = i
      · rw [if_pos hik, if_pos hik.symm]
      · rw [if_neg hik, if_neg (Ne.symm hik)]
  have := forN_eq (f := fun k d => do
      let x ← rd d k
      let y ← rd (mat (Matrix.of fun i (_ : Fin 1) => y i) []).data k
      wr d k (x + y)) (s := arr x []) (n := m) (fun k => arr (fun i : Fin m => if i.val < k then x i + y i else x i) []) (by simp) fun k hk => ?_
  · rw [this]
    refine congrArg (fun z => ok (arr z [])) ?_
    ext i
    simp
  · have h1 : rd (arr (fun i : Fin m => if i.val < k then x i + y i else x i) []) k = ok (XR.fin (x ⟨k, hk⟩)) := by
      have := arrOf_rd (fun i : Fin m => XR.fin (if i.val < k then x i + y i else x i)) [] hk
      simp only [lt_irrefl, if_false] at this
      exact this
    have h2 := mat_col_rd (Matrix.of fun i (_ : Fin 1) => y i) [] ⟨k, hk⟩
    dsimp only [Matrix.of_apply] at h2
    rw [h1, ok_bind, h2, ok_bind, XR.fin_add, hw _ k hk]
    refine congrArg (fun z => ok (arr z [])) ?_
    ext i
    by_cases hik : i.val = k
    · subst hik
      simp
    · rw [if_neg hik]
      by_cases hlt : i.val < k
      · rw [if_pos hlt, if_pos (by omega)]
      · rw [if_neg hlt, if_neg (by omega)]

theorem calEllipsoid_sym (junk : ℕ → XR) {P : Matrix (Fin n) (Fin 3) ℝ} (h : Symmetric0 P) {g : Fin 9 → ℝ} (hg : hardOf g = 0)
    (hp : ∀ i, len (softOf g *ᵥ P i) ≠ 0) (ρ l S mu : ℝ) (hmu : mu ≠ 0) (t u : List XR) (j : ℕ) (hj : j < n) : ∃ S' l' : ℝ,
    calEllipsoid junk (mat P t) (XR.fin mu) (vec (0 : V3) u).data j
        ⟨XR.fin ρ, arr g [], XR.fin l, XR.fin S, mat (1 : Matrix (Fin 9) (Fin 9) ℝ) []⟩ =
      ok ⟨XR.fin ρ, arr (g + (len (softOf g *ᵥ P ⟨j, hj⟩) - ρ) • elliSum P g) [], XR.fin l', XR.fin S', mat (1 : Matrix (Fin 9) (Fin 9) ℝ) []⟩ := by
  have hJ := calJacElli_val junk P g 0 t u (fun i => by rw [hg, add_zero]; exact hp i)
  obtain ⟨h6, -, -⟩ := elli_sum h hg
  have hC := calTau_singular junk (n := 9) (by omega) (by omega) l (-(ρ - len (softOf g *ᵥ P ⟨j, hj⟩))) (elliSum P g) 6 h6
  have hsz : szSub n 1 = n - 1 := by unfold szSub; rw [if_pos (by omega)]
  have hJm : (⟨1, 9, arr (∑ i, elliTerm g 0 (P i)) []⟩ : Mtx XR) = mat (Matrix.of fun _ : Fin 1 => elliSum P g) [] := rfl
  have hloop := add_loop g fun i => -(ρ - len (softOf g *ᵥ P ⟨j, hj⟩)) * elliSum P g i
  have hv : (g + fun i => -(ρ - len (softOf g *ᵥ P ⟨j, hj⟩)) * elliSum P g i) = g + (len (softOf g *ᵥ P ⟨j, hj⟩) - ρ) • elliSum P g := by
    ext i
    simp
  rw [hv] at hloop
  have pre : calEllipsoid junk (mat P t) (XR.fin mu) (vec (0 : V3) u).data j
        ⟨XR.fin ρ, arr g [], XR.fin l, XR.fin S, mat (1 : Matrix (Fin 9) (Fin 9) ℝ) []⟩ =
      if j < n - 1 then do
        let H ← calRow junk (mat P t) (j + 1)
        let f ← calFElli junk H (arr (g + (len (softOf g *ᵥ P ⟨j, hj⟩) - ρ) • elliSum P g) [])
        let (S, l) := calLambda j (XR.fin S) (XR.fin ρ - f) (XR.fin l) (XR.fin mu)
        return ⟨XR.fin ρ, arr (g + (len (softOf g *ᵥ P ⟨j, hj⟩) - ρ) • elliSum P g) [], l, S, mat (1 : Matrix (Fin 9) (Fin 9) ℝ) []⟩
      else return ⟨XR.fin ρ, arr (g + (len (softOf g *ᵥ P ⟨j, hj⟩) - ρ) • elliSum P g) [], XR.fin l, XR.fin S, mat (1 : Matrix (Fin 9) (Fin 9) ℝ) []⟩ := by
    unfold calEllipsoid
    dsimp only
    rw [hJ, ok_bind, show calRow junk (mat P t) j = ok (vec (P ⟨j, hj⟩) []) from calRow_mat junk P t ⟨j, hj⟩, ok_bind, calFElli_val, ok_bind,
      XR.fin_sub, XR.fin_neg, hg, add_zero, hJm, hC, ok_bind]
    dsimp only
    rw [hloop, ok_bind, mat_rows, hsz]
  rw [pre]
  by_cases hlast : j < n - 1
  · have hl : j + 1 < n := by omega
    rw [if_pos hlast, show calRow junk (mat P t) (j + 1) = ok (vec (P ⟨j + 1, hl⟩) []) from calRow_mat junk P t ⟨j + 1, hl⟩, ok_bind,
      calFElli_val, ok_bind, XR.fin_sub]
    obtain ⟨S', l', hL⟩ := calLambda_real j S (ρ - len (softOf (g + (len (softOf g *ᵥ P ⟨j, hj⟩) - ρ) • elliSum P g) *ᵥ
      (P ⟨j + 1, hl⟩ + hardOf (g + (len (softOf g *ᵥ P ⟨j, hj⟩) - ρ) • elliSum P g)))) l mu hmu
    rw [hL]
    exact ⟨S', l', rfl⟩
  · rw [if_neg hlast]
    exact ⟨S, l, rfl⟩

/-- The starting point for readings between `lo` and `hi`. -/
theorem calCentre_ends (junk : ℕ → XR) {P : Matrix (Fin n) (Fin 3) ℝ} {lo hi : V3} (hlo : ∀ k, (∃ i, P i k = lo k) ∧ ∀ i, lo k ≤ P i k)
    (hhi : ∀ k, (∃ i, P i k = hi k) ∧ ∀ i, P i k ≤ hi k) (fuel : ℕ) (extra : List XR) (hn : 1 ≤ n)
    (hfuel : 2 * n ≤ fuel) (hsz : n + extra.length < SIZE_MOD) (hsep : ∀ k, Separated (List.ofFn fun i => P i k)) (hex : extra ≠ [])
    (b : Fin 3 → XR) (t u : List XR) :
    calCentre fuel extra junk (mat P t) (vecOf b u) =
      ok ((vec (fun k => -(hi k + lo k) / 2) u).data, XR.fin ((hi 0 - lo 0) / 2 + (hi 1 - lo 1) / 2 + (hi 2 - lo 2) / 2)) := by
  have step : ∀ (k : Fin 3) (v w : Fin n → XR), ∃ (w' : Fin n → XR),
      mtxGetCol (mat P t) k (arrOf v []) = ok (0, arr (fun i => P i k) []) ∧
      vecSort fuel extra ⟨n, arr (fun i => P i k) []⟩ ⟨n, arrOf w []⟩ = ok (0, ⟨n, arrOf w' []⟩) ∧
      rd (arrOf w' []) (szSub n 1) = ok (XR.fin (hi k)) ∧ rd (arrOf w' []) 0 = ok (XR.fin (lo k)) := by
    intro k v w
    obtain ⟨l, hp, hs, hsort⟩ := vec_sort_partial (vec (fun i => P i k) []) ⟨n, arrOf w []⟩ (fun i => P i k) extra fuel (vec_is _ _) hn
      (by simp [arrOf]) hfuel hsz (hsep k) (Or.inl hex)
    have hlen : l.length = n := by rw [hp.length_eq, List.length_ofFn]
    have hmem : ∀ x, x ∈ l ↔ ∃ i, P i k = x := by
      intro x
      rw [hp.mem_iff, List.mem_ofFn]
    obtain ⟨h1, h2⟩ := ends_of_sorted hs (a := lo k) (b := hi k) ((hmem _).2 (hlo k).1) ((hmem _).2 (hhi k).1)
      (fun x hx => by obtain ⟨i, rfl⟩ := (hmem x).1 hx; exact (hlo k).2 i)
      (fun x hx => by obtain ⟨i, rfl⟩ := (hmem x).1 hx; exact (hhi k).2 i)
    have hl : l.map XR.fin ++ (arrOf w []).drop n = arrOf (fun i : Fin n => XR.fin (l[i.val]'(by omega))) [] := by
      rw [show (arrOf w []).drop n = [] by simp [arrOf]]
      unfold arrOf
      congr 1
      apply List.ext_getElem
      · simp [hlen]
      · intro i h1 h2
        simp
    refine ⟨fun i => XR.fin (l[i.val]'(by omega)), mat_getCol P t v [] k, ?_, ?_, ?_⟩
    · rw [← hl]
      exact hsort
    · rw [← hl]
      apply rd_of
      rw [show szSub n 1 = n - 1 by unfold szSub; rw [if_pos hn], List.getElem?_append_left (by simp [hlen]; omega), List.getElem?_map, ← hlen, h2]
      rfl
    · rw [← hl]
      apply rd_of
      rw [List.getElem?_append_left (by simp [hlen]; omega), List.getElem?_map, h1]
      rfl
  obtain ⟨w0, a0, b0, c0, d0⟩ := step 0 (fun i => junk i) (fun i => junk i)
  obtain ⟨w1, a1, b1, c1, d1⟩ := step 1 (fun i => XR.fin (P i 0)) w0
  obtain ⟨w2, a2, b2, c2, d2⟩ := step 2 (fun i => XR.fin (P i 1)) w1
  have e1 : ∀ k : Fin 3, -(XR.fin (hi k) + XR.fin (lo k)) / lit 2 = XR.fin (-(hi k + lo k) / 2) := by
    intro k
    rw [lit_two, XR.fin_add, XR.fin_neg, XR.fin_div (by norm_num)]
  have e2 : ∀ k : Fin 3, (XR.fin (hi k) - XR.fin (lo k)) / lit 2 = XR.fin ((hi k - lo k) / 2) := by
    intro k
    rw [lit_two, XR.fin_sub, XR.fin_div (by norm_num)]
  replace a0 : mtxGetCol (mat P t) 0 (arrOf (fun i : Fin n => junk i) []) = ok (0, arr (fun i => P i 0) []) := a0
  replace a1 : mtxGetCol (mat P t) 1 (arr (fun i => P i 0) []) = ok (0, arr (fun i => P i 1) []) := a1
  replace a2 : mtxGetCol (mat P t) 2 (arr (fun i => P i 1) []) = ok (0, arr (fun i => P i 2) []) := a2
  have hb : (vecOf b u).data = b 0 :: b 1 :: b 2 :: u := rfl
  have v0 : wr (b 0 :: b 1 :: b 2 :: u) 0 (XR.fin (-(hi 0 + lo 0) / 2)) = ok (XR.fin (-(hi 0 + lo 0) / 2) :: b 1 :: b 2 :: u) := rfl
  have v1 : wr (XR.fin (-(hi 0 + lo 0) / 2) :: b 1 :: b 2 :: u) 1 (XR.fin (-(hi 1 + lo 1) / 2)) = ok (XR.fin (-(hi 0 + lo 0) / 2) :: XR.fin (-(hi 1 + lo 1) / 2) :: b 2 :: u) := rfl
  have v2 : wr (XR.fin (-(hi 0 + lo 0) / 2) :: XR.fin (-(hi 1 + lo 1) / 2) :: b 2 :: u) 2 (XR.fin (-(hi 2 + lo 2) / 2)) = ok (XR.fin (-(hi 0 + lo 0) / 2) :: XR.fin (-(hi 1 + lo 1) / 2) :: XR.fin (-(hi 2 + lo 2) / 2) :: u) := rfl
  unfold calCentre
  simp only [mat_rows]
  rw [forN_succ, forN_succ, forN_succ, forN_zero, ok_bind, junkArr_eq, hb]
  dsimp only
  rw [a0, ok_bind]
  dsimp only
  rw [b0, ok_bind]
  dsimp only
  rw [c0, ok_bind, d0, ok_bind, e1, e2, v0, ok_bind, pure_eq, ok_bind]
  dsimp only
  rw [a1, ok_bind]
  dsimp only
  rw [b1, ok_bind]
  dsimp only
  rw [c1, ok_bind, d1, ok_bind, e1, e2, v1, ok_bind, pure_eq, ok_bind]
  dsimp only
  rw [a2, ok_bind]
  dsimp only
  rw [b2, ok_bind]
  dsimp only
  rw [c2, ok_bind, d2, ok_bind, e1, e2, v2, ok_bind, pure_eq, ok_bind, pure_eq, lit_zero, XR.fin_add, XR.fin_add, XR.fin_add]
  refine congrArg ok (Prod.ext rfl ?_)
  dsimp only
  congr 1
  ring

/-- C110, part: for readings that are symmetric about the origin the hard iron vector is zero, and the soft iron matrix is the result of the
recurrence `parmSeq`, in which each reading adds its residual, times the sum of the gradients of all readings and without any damping. `M` are
the largest readings on the three axes. Missing: readings that are not symmetric about the origin, readings for which a length met on the way is
zero, and columns for which the sorting used inside is not exact (see C12). -/
theorem cal_magn_symmetric_partial (junk : ℕ → XR) {P : Matrix (Fin n) (Fin 3) ℝ} {M : V3} (h : Symmetric0 P)
    (hM : ∀ k, (∃ i, P i k = M k) ∧ ∀ i, P i k ≤ M k) (hp : ∀ i, P i ≠ 0)
    (hq : ∀ j, j < n → ∀ i, softOf (parmSeq P (radiusSeq P ((M 0 + M 1 + M 2) / 3) n) j) *ᵥ P i ≠ 0) (fuel : ℕ) (extra : List XR)
    (hn : 1 ≤ n) (hfuel : 2 * n ≤ fuel) (hsz : n + extra.length < SIZE_MOD) (hsep : ∀ k, Separated (List.ofFn fun i => P i k))
    (hex : extra ≠ []) (l mu : ℝ) (hmu : 1 ≤ mu) (K : Matrix (Fin 3) (Fin 3) XR) (b : Fin 3 → XR) (t w u : List XR) :
    ∃ l' : ℝ, calMagn fuel extra junk (mat P t) (XR.fin l) (XR.fin mu) (mtxOf K w) (vecOf b u) =
      ok (0, XR.fin l', mat (softOf (parmSeq P (radiusSeq P ((M 0 + M 1 + M 2) / 3) n) n)) w, vec (0 : V3) u) := by
  have hmu0 : mu ≠ 0 := by intro h0; rw [h0] at hmu; norm_num at hmu
  have len0 : ∀ v : V3, v ≠ 0 → len v ≠ 0 := by
    intro v hv h0
    unfold len at h0
    rw [Real.sqrt_eq_zero (by rw [dotProduct]; exact Finset.sum_nonneg fun i _ => mul_self_nonneg _)] at h0
    exact hv (dotProduct_self_eq_zero.1 h0)
  obtain ⟨U4, hU4⟩ := uninit_eq junk 4 4
  obtain ⟨U9, hU9⟩ := uninit_eq junk 9 9
  have hid4 : mtxInit (mtxOf U4 []) (some entryFnIdentity) = ok (0, mat (1 : Matrix (Fin 4) (Fin 4) ℝ) []) := identity_of U4 []
  have hid9 : mtxInit (mtxOf U9 []) (some entryFnIdentity) = ok (0, mat (1 : Matrix (Fin 9) (Fin 9) ℝ) []) := identity_of U9 []
  have hid3 : mtxInit (mtxOf K w) (some entryFnIdentity) = ok (0, mat (1 : Matrix (Fin 3) (Fin 3) ℝ) w) := identity_of K w
  have hlo : ∀ k, (∃ i, P i k = (-M) k) ∧ ∀ i, (-M) k ≤ P i k := by
    obtain ⟨σ, hσ⟩ := h
    intro k
    refine ⟨?_, fun i => ?_⟩
    · obtain ⟨i, hi⟩ := (hM k).1
      exact ⟨σ i, by rw [hσ, Pi.neg_apply, hi, Pi.neg_apply]⟩
    · have := (hM k).2 (σ i)
      rw [hσ, Pi.neg_apply] at this
      rw [Pi.neg_apply]
      linarith
  have hcen := calCentre_ends junk hlo hM fuel extra hn hfuel hsz hsep hex b t u
  rw [show (fun k => -(M k + (-M) k) / 2) = (0 : V3) by ext k; simp,
    show (M 0 - (-M) 0) / 2 + (M 1 - (-M) 1) / 2 + (M 2 - (-M) 2) / 2 = M 0 + M 1 + M 2 by simp only [Pi.neg_apply]; ring] at hcen
  obtain ⟨R₀, hR0⟩ : ∃ R₀, (M 0 + M 1 + M 2) / 3 = R₀ := ⟨_, rfl⟩
  rw [hR0] at hq ⊢
  obtain ⟨ρ, hR⟩ : ∃ ρ, radiusSeq P R₀ n = ρ := ⟨_, rfl⟩
  rw [hR] at hq ⊢
  have s1 : (forN n (fun j s => calSphere junk (mat P t) (XR.fin mu) j s)
      ⟨XR.fin R₀, (vec (0 : V3) u).data, XR.fin l, XR.fin 0, mat (1 : Matrix (Fin 4) (Fin 4) ℝ) []⟩).sat fun (s : CalFit XR) => ∃ S' l' : ℝ,
        s = ⟨XR.fin (radiusSeq P R₀ n), (vec (0 : V3) u).data, XR.fin l', XR.fin S', mat (1 : Matrix (Fin 4) (Fin 4) ℝ) []⟩ := by
    refine forN_sat (fun j (s : CalFit XR) => ∃ S' l' : ℝ,
        s = ⟨XR.fin (radiusSeq P R₀ j), (vec (0 : V3) u).data, XR.fin l', XR.fin S', mat (1 : Matrix (Fin 4) (Fin 4) ℝ) []⟩) ⟨0, l, rfl⟩ ?_
    rintro j hj s ⟨S, l, rfl⟩
    obtain ⟨S', l', hC⟩ := calSphere_sym junk h (fun i => len0 _ (hp i)) (radiusSeq P R₀ j) l S mu hmu0 t u j hj
    rw [hC, sat_ok, radiusSeq, dif_pos hj]
    exact ⟨S', l', rfl⟩
  have s2 : (forN n (fun j e => calEllipsoid junk (mat P t) (XR.fin mu) (vec (0 : V3) u).data j e)
      ⟨XR.fin ρ, arr (parmSeq P ρ 0) [], XR.fin l, XR.fin 0, mat (1 : Matrix (Fin 9) (Fin 9) ℝ) []⟩).sat fun (s : CalFit XR) => ∃ S' l' : ℝ,
        s = ⟨XR.fin ρ, arr (parmSeq P ρ n) [], XR.fin l', XR.fin S', mat (1 : Matrix (Fin 9) (Fin 9) ℝ) []⟩ := by
    refine forN_sat (fun j (s : CalFit XR) => ∃ S' l' : ℝ,
        s = ⟨XR.fin ρ, arr (parmSeq P ρ j) [], XR.fin l', XR.fin S', mat (1 : Matrix (Fin 9) (Fin 9) ℝ) []⟩) ⟨0, l, rfl⟩ ?_
    rintro j hj s ⟨S, l, rfl⟩
    obtain ⟨S', l', hC⟩ := calEllipsoid_sym junk h (parm_hard h ρ j) (fun i => len0 _ (hq j hj i)) ρ l S mu hmu0 t u j hj
    rw [hC, sat_ok, parmSeq, dif_pos hj]
    exact ⟨S', l', rfl⟩
  obtain ⟨_, h1, S1, l1, rfl⟩ := s1
  obtain ⟨_, h2, S2, l2, rfl⟩ := s2
  refine ⟨l2, ?_⟩
  have hm3 : XR.fin (M 0 + M 1 + M 2) / lit 3 = XR.fin R₀ := by
    rw [XR.lit_eq, XR.fin_div (by norm_num), ← hR0]
    norm_num
  have hg : [(lit 1 : XR), XR.fin 0, XR.fin 0, lit 1, XR.fin 0, lit 1, XR.fin 0, XR.fin 0, XR.fin 0] = arr (parmSeq P ρ 0) [] := by
    rw [show (lit 1 : XR) = XR.fin 1 by simp]
    rfl
  have hK : forN 9 (fun i d => do
      let x ← rd (mat (softOf (parmSeq P ρ n)) []).data i
      wr d i x) (mat (1 : Matrix (Fin 3) (Fin 3) ℝ) w).data = ok (mat (softOf (parmSeq P ρ n)) w).data :=
    forN_write (f := fun i d => do
      let x ← rd (mat (softOf (parmSeq P ρ n)) []).data i
      wr d i x) (mat (softOf (parmSeq P ρ n)) []).data rfl (by unfold mat mtxOf; simp) (fun i hi t _ => by
        rw [rd_lt hi, ok_bind]; rfl)
  have hh : ∀ k : Fin 3, hardOf (parmSeq P ρ n) k = 0 := fun k => congrFun (parm_hard h ρ n) k
  have g6 : rd (arr (parmSeq P ρ n) []) 6 = ok (XR.fin 0) := congrArg (fun x => ok (XR.fin x)) (hh 0)
  have g7 : rd (arr (parmSeq P ρ n) []) 7 = ok (XR.fin 0) := congrArg (fun x => ok (XR.fin x)) (hh 1)
  have g8 : rd (arr (parmSeq P ρ n) []) 8 = ok (XR.fin 0) := congrArg (fun x => ok (XR.fin x)) (hh 2)
  rw [hR] at h1
  unfold calMagn
  rw [if_neg (by simp [hmu]), if_neg (by simp; omega), hcen, ok_bind]
  dsimp only
  rw [hU4, hid4, ok_bind]
  dsimp only
  rw [hm3, lit_zero, mat_rows]
  refine Eq.trans (congrArg (fun x => x >>= _) h1) ?_
  rw [ok_bind, hid3, ok_bind]
  dsimp only
  rw [show rd (vec (0 : V3) u).data 0 = ok (XR.fin 0) from rfl, show rd (vec (0 : V3) u).data 1 = ok (XR.fin 0) from rfl,
    show rd (vec (0 : V3) u).data 2 = ok (XR.fin 0) from rfl, ok_bind, ok_bind, ok_bind, hU9, hid9, ok_bind]
  dsimp only
  rw [hg]
  refine Eq.trans (congrArg (fun x => x >>= _) h2) ?_
  rw [ok_bind]
  dsimp only
  rw [calSym_eq, ok_bind, hK, ok_bind, g6, ok_bind, g7, ok_bind, g8, ok_bind]
  rfl

/-- Two opposite readings on the first axis, at the distance `r` from the origin. -/
def pairPts (r : ℝ) : Matrix (Fin 2) (Fin 3) ℝ := !![r, 0, 0; -r, 0, 0]

theorem pair_sym (r : ℝ) : Symmetric0 (pairPts r) := by
  refine ⟨Equiv.swap 0 1, fun i => ?_⟩
  fin_cases i
  · ext k
    fin_cases k <;> simp [pairPts]
  · ext k
    fin_cases k <;> simp [pairPts]

theorem len_axis (a : ℝ) : len ![a, 0, 0] = |a| := by
  unfold len
  rw [show (![a, 0, 0] : V3) ⬝ᵥ ![a, 0, 0] = a ^ 2 by simp [dotProduct, Fin.sum_univ_three]; ring, Real.sqrt_sq_eq_abs]

theorem pair_row (r : ℝ) : pairPts r 0 = ![r, 0, 0] ∧ pairPts r 1 = ![-r, 0, 0] := ⟨rfl, rfl⟩

theorem pair_radius {r : ℝ} (hr : 0 < r) : radiusSeq (pairPts r) (r / 3) 2 = r / 3 := by
  have h0 : len (pairPts r ⟨0, by omega⟩) = r := by
    rw [show pairPts r ⟨0, by omega⟩ = ![r, 0, 0] from rfl, len_axis, abs_of_pos hr]
  have h1 : len (pairPts r ⟨1, by omega⟩) = r := by
    rw [show pairPts r ⟨1, by omega⟩ = ![-r, 0, 0] from rfl, len_axis, abs_neg, abs_of_pos hr]
  simp only [radiusSeq]
  rw [dif_pos (by omega), dif_pos (by omega), h0, h1]
  push_cast
  ring

/-- The matrix is the diagonal one with `c`, 1, 1. -/
def diagParm (c : ℝ) : Fin 9 → ℝ := ![c, 0, 0, 1, 0, 1, 0, 0, 0]

theorem diagParm_soft (c a : ℝ) : softOf (diagParm c) *ᵥ ![a, 0, 0] = ![c * a, 0, 0] := by
  ext k
  fin_cases k <;> simp [softOf, diagParm, Matrix.mulVec, dotProduct, Fin.sum_univ_three]

theorem pair_elli {r c : ℝ} (hr : 0 < r) (hc : c ≠ 0) : elliSum (pairPts r) (diagParm c) = ![-(2 * r * (c / |c|)), 0, 0, 0, 0, 0, 0, 0, 0] := by
  have hard : hardOf (diagParm c) = 0 := by
    ext k
    fin_cases k <;> rfl
  have ha : |c| ≠ 0 := abs_ne_zero.2 hc
  unfold elliSum
  rw [Fin.sum_univ_two, (pair_row r).1, (pair_row r).2]
  unfold elliTerm
  rw [hard]
  simp only [add_zero, diagParm_soft, len_axis, abs_mul, abs_neg, abs_of_pos hr]
  ext m
  fin_cases m <;> simp [elliRow] <;> field_simp <;> ring

theorem pair_step {r c : ℝ} (hr : 0 < r) (hc : c ≠ 0) (a : ℝ) (ha : |a| = r) :
    diagParm c + (len (softOf (diagParm c) *ᵥ ![a, 0, 0]) - r / 3) • elliSum (pairPts r) (diagParm c) =
      diagParm (c / |c| * (|c| * (1 - 2 * r ^ 2) + 2 * r ^ 2 / 3)) := by
  have hne : |c| ≠ 0 := abs_ne_zero.2 hc
  rw [diagParm_soft, len_axis, abs_mul, ha, pair_elli hr hc]
  ext m
  fin_cases m <;> simp [diagParm]
  field_simp
  ring

/-- C110, refutation: the two readings (r, 0, 0) and (-r, 0, 0) lie on a sphere around the origin, and there is nothing to correct. The soft iron
matrix is not the identity: its first entry is a polynomial in the distance from the origin, so the result also depends on the unit of the
readings. -/
theorem cal_magn_pair (junk : ℕ → XR) (r : ℝ) (hr : 1 ≤ r) (fuel : ℕ) (hfuel : 4 ≤ fuel) (l mu : ℝ) (hmu : 1 ≤ mu)
    (K : Matrix (Fin 3) (Fin 3) XR) (b : Fin 3 → XR) (t w u : List XR) :
    ∃ l' : ℝ, calMagn fuel [XR.fin 0] junk (mat (pairPts r) t) (XR.fin l) (XR.fin mu) (mtxOf K w) (vecOf b u) =
      ok (0, XR.fin l', mat !![-((4 * r ^ 2 / 3 - 1) * (1 - 2 * r ^ 2) + 2 * r ^ 2 / 3), 0, 0; 0, 1, 0; 0, 0, 1] w, vec (0 : V3) u) := by
  have hr0 : 0 < r := by linarith
  have hc : 1 - 4 * r ^ 2 / 3 < 0 := by nlinarith
  have p0 : parmSeq (pairPts r) (r / 3) 0 = diagParm 1 := rfl
  have p1 : parmSeq (pairPts r) (r / 3) 1 = diagParm (1 - 4 * r ^ 2 / 3) := by
    rw [parmSeq, dif_pos (by omega), p0, show pairPts r ⟨0, by omega⟩ = ![r, 0, 0] from rfl, pair_step hr0 one_ne_zero r (abs_of_pos hr0)]
    congr 1
    rw [abs_one]
    ring
  have p2 : parmSeq (pairPts r) (r / 3) 2 = diagParm (-((4 * r ^ 2 / 3 - 1) * (1 - 2 * r ^ 2) + 2 * r ^ 2 / 3)) := by
    rw [parmSeq, dif_pos (by omega), p1, show pairPts r ⟨1, by omega⟩ = ![-r, 0, 0] from rfl,
      pair_step hr0 hc.ne (-r) (by rw [abs_neg, abs_of_pos hr0])]
    congr 1
    have hc' := hc.ne
    rw [abs_of_neg hc, div_neg, div_self hc']
    ring
  have hrow : ∀ i, ∃ a, a ≠ 0 ∧ pairPts r i = ![a, 0, 0] := by
    intro i
    fin_cases i
    · exact ⟨r, hr0.ne', rfl⟩
    · exact ⟨-r, by simpa using hr0.ne', rfl⟩
  have key := cal_magn_symmetric_partial junk (P := pairPts r) (M := ![r, 0, 0]) (pair_sym r) ?_ ?_ ?_ fuel [XR.fin 0] (by omega) hfuel
    (by rw [SIZE_MOD_eq]; simp) ?_ (by simp) l mu hmu K b t w u
  · have e : (![r, 0, 0] 0 + ![r, 0, 0] 1 + ![r, 0, 0] 2) / 3 = r / 3 := by simp
    rw [e, pair_radius hr0, p2] at key
    exact key
  · intro k
    fin_cases k
    · refine ⟨⟨0, rfl⟩, fun i => ?_⟩
      fin_cases i <;> simp [pairPts]
      linarith
    · refine ⟨⟨0, rfl⟩, fun i => ?_⟩
      fin_cases i <;> simp [pairPts]
    · refine ⟨⟨0, rfl⟩, fun i => ?_⟩
      fin_cases i <;> simp [pairPts]
  · intro i h0
    obtain ⟨a, ha, he⟩ := hrow i
    rw [he] at h0
    exact ha (congrFun h0 0)
  · have e : (![r, 0, 0] 0 + ![r, 0, 0] 1 + ![r, 0, 0] 2) / 3 = r / 3 := by simp
    rw [e, pair_radius hr0]
    intro j hj i h0
    obtain ⟨a, ha, he⟩ := hrow i
    rw [he] at h0
    interval_cases j
    · rw [p0, diagParm_soft] at h0
      have := congrFun h0 0
      simp [ha] at this
    · rw [p1, diagParm_soft] at h0
      have := congrFun h0 0
      rcases mul_eq_zero.1 this with h | h
      · exact hc.ne h
      · exact ha h
  · intro k
    have h2 : (1e-5 : ℝ) ≤ |r| := by rw [abs_of_pos hr0]; norm_num; linarith
    have h5 : (1e-5 : ℝ) ≤ |-r| := by rw [abs_neg]; exact h2
    have h3 : (1e-5 : ℝ) ≤ |r - -r| := by rw [abs_of_pos (by linarith)]; norm_num; linarith
    have h4 : (1e-5 : ℝ) ≤ |-r - r| := by rw [abs_of_neg (by linarith)]; norm_num; linarith
    fin_cases k
    · unfold Separated
      simp only [pairPts, List.ofFn_succ, List.ofFn_zero]
      simp only [List.mem_cons, List.not_mem_nil, or_false]
      refine ⟨?_, ?_⟩
      · rintro a (rfl | rfl) c (rfl | rfl)
        · exact Or.inl rfl
        · exact Or.inr h3
        · exact Or.inr h4
        · exact Or.inl rfl
      · rintro a (rfl | rfl)
        · exact Or.inr h2
        · exact Or.inr h5
    · simp [Separated, pairPts, List.ofFn_succ]
    · simp [Separated, pairPts, List.ofFn_succ]

/-- C110, refutation, with numbers: the two readings (3, 0, 0) and (-3, 0, 0) are "corrected" to (543, 0, 0) and (-543, 0, 0). -/
theorem cal_magn_not_identity (junk : ℕ → XR) (K : Matrix (Fin 3) (Fin 3) XR) (b : Fin 3 → XR) :
    ∃ l' : ℝ, calMagn 4 [XR.fin 0] junk (mat !![3, 0, 0; -3, 0, 0] []) (XR.fin 0.1) (XR.fin 2) (mtxOf K []) (vecOf b []) =
      ok (0, XR.fin l', mat !![181, 0, 0; 0, 1, 0; 0, 0, 1] [], vec (0 : V3) []) := by
  have h := cal_magn_pair junk 3 (by norm_num) 4 le_rfl 0.1 2 (by norm_num) K b [] [] []
  rw [show -((4 * (3 : ℝ) ^ 2 / 3 - 1) * (1 - 2 * 3 ^ 2) + 2 * 3 ^ 2 / 3) = 181 by norm_num] at h
  exact h

/-- C110: for readings on a sphere around the origin the radius of the sphere fit runs away from the true one: the error grows with the factor
`n - 1` for every reading. -/
theorem radius_runs_away {P : Matrix (Fin n) (Fin 3) ℝ} {ρ : ℝ} (hP : ∀ i, len (P i) = ρ) (R₀ : ℝ) :
    radiusSeq P R₀ n - ρ = (R₀ - ρ) * (1 - n) ^ n := by
  have key : ∀ j, j ≤ n → radiusSeq P R₀ j - ρ = (R₀ - ρ) * (1 - n) ^ j := by
    intro j
    induction j with
    | zero => intro _; simp [radiusSeq]
    | succ j ih =>
      intro hj
      rw [radiusSeq, dif_pos (by omega), hP, pow_succ, ← mul_assoc, ← ih (by omega)]
      ring
  exact key n le_rfl

/-! ## The gradients -/

/-- The length along a line. -/
theorem len_line (a d : V3) (x₀ : ℝ) (ha : len a ≠ 0) : HasDerivAt (fun x => -len (a + (x - x₀) • d)) (-(a ⬝ᵥ d) / len a) x₀ := by
  have hin : HasDerivAt (fun x : ℝ => a ⬝ᵥ a + 2 * (a ⬝ᵥ d) * (x - x₀) + (d ⬝ᵥ d) * (x - x₀) ^ 2) (2 * (a ⬝ᵥ d)) x₀ := by
    have h1 : HasDerivAt (fun x : ℝ => x - x₀) 1 x₀ := (hasDerivAt_id x₀).sub_const x₀
    have h2 := ((h1.const_mul (2 * (a ⬝ᵥ d))).const_add (a ⬝ᵥ a)).add ((h1.pow 2).const_mul (d ⬝ᵥ d))
    have e : 2 * (a ⬝ᵥ d) * 1 + (d ⬝ᵥ d) * (((2 : ℕ) : ℝ) * (x₀ - x₀) ^ (2 - 1) * 1) = 2 * (a ⬝ᵥ d) := by simp
    rw [e] at h2
    exact h2
  have heq : (fun x : ℝ => -len (a + (x - x₀) • d)) =
      fun x => -Real.sqrt (a ⬝ᵥ a + 2 * (a ⬝ᵥ d) * (x - x₀) + (d ⬝ᵥ d) * (x - x₀) ^ 2) := by
    ext x
    unfold len
    congr 2
    simp only [add_dotProduct, dotProduct_add, smul_dotProduct, dotProduct_smul, smul_eq_mul, dotProduct_comm d a]
    ring
  rw [heq]
  have hv : a ⬝ᵥ a + 2 * (a ⬝ᵥ d) * (x₀ - x₀) + (d ⬝ᵥ d) * (x₀ - x₀) ^ 2 = a ⬝ᵥ a := by simp
  have hne : a ⬝ᵥ a + 2 * (a ⬝ᵥ d) * (x₀ - x₀) + (d ⬝ᵥ d) * (x₀ - x₀) ^ 2 ≠ 0 := by
    rw [hv]
    intro h0
    exact ha (by unfold len; rw [h0, Real.sqrt_zero])
  have := (hin.sqrt hne).neg
  rw [hv] at this
  have e2 : -(2 * (a ⬝ᵥ d) / (2 * Real.sqrt (a ⬝ᵥ a))) = -(a ⬝ᵥ d) / len a := by
    have ha' : Real.sqrt (a ⬝ᵥ a) ≠ 0 := ha
    unfold len
    field_simp
  rw [e2] at this
  exact this

/-- C110, refutation: the number the sphere fit adds up as the slope of its residual `R - |p + b|` along a coordinate of `b` is that slope only
where the coordinate is zero: it has the sign of `b` wrong. -/
theorem sphere_slope_iff (b p : V3) (k : Fin 3) (h : len (p + b) ≠ 0) :
    HasDerivAt (fun x => -len (p + Function.update b k x)) (shpTerm b p k.succ) (b k) ↔ b k = 0 := by
  have hline : (fun x => -len (p + Function.update b k x)) = fun x => -len ((p + b) + (x - b k) • Pi.single k (1 : ℝ)) := by
    ext x
    congr 2
    ext m
    by_cases hm : m = k
    · subst hm
      simp
    · simp [hm]
  have hd := len_line (p + b) (Pi.single k 1) (b k) h
  rw [← hline, dotProduct_single, mul_one, Pi.add_apply] at hd
  have ht : shpTerm b p k.succ = -(p k - b k) / len (p + b) := by
    fin_cases k <;> rfl
  rw [ht]
  constructor
  · intro h'
    have := h'.unique hd
    rw [div_left_inj' h] at this
    linarith
  · intro h0
    rw [h0] at hd ⊢
    simpa using hd

/-- Where the ellipsoid fit keeps the slope along a parameter of the soft iron matrix. -/
def slotOf : Fin 6 → Fin 9 := ![0, 3, 4, 1, 5, 2]

/-- C110: the numbers that the ellipsoid fit adds up are the slopes of its residual `R - |K (p + b)|` along the six entries of the soft iron matrix
(when the offset of the sphere fit is still the current one), but in another order than that of the parameters they are used for. -/
theorem ellipsoid_slope (g : Fin 9 → ℝ) (p : V3) (m : Fin 6) (h : len (softOf g *ᵥ (p + hardOf g)) ≠ 0) :
    HasDerivAt (fun x => -len (softOf (Function.update g (m.castLE (by omega)) x) *ᵥ (p + hardOf g))) (elliTerm g (hardOf g) p (slotOf m))
      (g (m.castLE (by omega))) := by
  obtain ⟨u, hu⟩ : ∃ u, p + hardOf g = u := ⟨_, rfl⟩
  unfold elliTerm
  rw [hu] at h ⊢
  have main : ∀ (d : V3) (x₀ y : ℝ) (F : ℝ → V3), (∀ x, F x = softOf g *ᵥ u + (x - x₀) • d) → -((softOf g *ᵥ u) ⬝ᵥ d) / len (softOf g *ᵥ u) = y →
      HasDerivAt (fun x => -len (F x)) y x₀ := by
    intro d x₀ y F hF hy
    rw [show (fun x => -len (F x)) = fun x => -len (softOf g *ᵥ u + (x - x₀) • d) by ext x; rw [hF], ← hy]
    exact len_line _ d x₀ h
  have ed : ∀ a d : V3, a ⬝ᵥ d = a 0 * d 0 + a 1 * d 1 + a 2 * d 2 := fun a d => by simp [dotProduct, Fin.sum_univ_three]
  fin_cases m
  · refine main ![u 0, 0, 0] _ _ _ (fun x => ?_) ?_
    · ext k; fin_cases k <;> simp [softOf, Matrix.mulVec, dotProduct, Fin.sum_univ_three, Function.update_apply] <;> ring
    · simp [ed, slotOf, elliRow]; ring
  · refine main ![u 1, u 0, 0] _ _ _ (fun x => ?_) ?_
    · ext k; fin_cases k <;> simp [softOf, Matrix.mulVec, dotProduct, Fin.sum_univ_three, Function.update_apply] <;> ring
    · simp [ed, slotOf, elliRow]; ring
  · refine main ![u 2, 0, u 0] _ _ _ (fun x => ?_) ?_
    · ext k; fin_cases k <;> simp [softOf, Matrix.mulVec, dotProduct, Fin.sum_univ_three, Function.update_apply] <;> ring
    · simp [ed, slotOf, elliRow]; ring
  · refine main ![0, u 1, 0] _ _ _ (fun x => ?_) ?_
    · ext k; fin_cases k <;> simp [softOf, Matrix.mulVec, dotProduct, Fin.sum_univ_three, Function.update_apply] <;> ring
    · simp [ed, slotOf, elliRow]; ring
  · refine main ![0, u 2, u 1] _ _ _ (fun x => ?_) ?_
    · ext k; fin_cases k <;> simp [softOf, Matrix.mulVec, dotProduct, Fin.sum_univ_three, Function.update_apply] <;> ring
    · simp [ed, slotOf, elliRow]; ring
  · refine main ![0, 0, u 2] _ _ _ (fun x => ?_) ?_
    · ext k; fin_cases k <;> simp [softOf, Matrix.mulVec, dotProduct, Fin.sum_univ_three, Function.update_apply] <;> ring
    · simp [ed, slotOf, elliRow]; ring

/-- C110, refutation: so the entry used for the second parameter is not its slope, not even at the start of the fit. -/
theorem ellipsoid_slope_wrong :
    ¬ HasDerivAt (fun x => -len (softOf (Function.update (diagParm 1) 1 x) *ᵥ ![0, 1, 0])) (elliTerm (diagParm 1) 0 ![0, 1, 0] 1) 0 := by
  intro h
  have hs : softOf (diagParm 1) *ᵥ ![0, 1, 0] = ![0, 1, 0] := by
    ext k; fin_cases k <;> simp [softOf, diagParm, Matrix.mulVec, dotProduct, Fin.sum_univ_three]
  have hh : hardOf (diagParm 1) = 0 := by
    ext k; fin_cases k <;> rfl
  have hl : len ![0, 1, 0] = 1 := by
    unfold len
    simp [dotProduct, Fin.sum_univ_three]
  have h1 := ellipsoid_slope (diagParm 1) ![0, 1, 0] 1 (by rw [hh, add_zero, hs, hl]; norm_num)
  rw [hh, add_zero] at h1
  have := h.unique h1
  unfold elliTerm at this
  rw [hh, add_zero, hs, hl] at this
  simp [elliRow, slotOf] at this

end Verif
