import Verif.Props.Calib1
import Verif.Props.Calib2
import Verif.Props.Stat5
import Verif.Props.Decomp1

/-!
# Calibration of the magnetometer by fitting an ellipsoid (C109)
-/

namespace Verif

open Out Matrix

/-- The quadratic part of a quadric. -/
def quadMat (c : Fin 9 → ℝ) : Matrix (Fin 3) (Fin 3) ℝ := !![c 0, c 3, c 4; c 3, c 1, c 5; c 4, c 5, c 2]

/-- The linear part of a quadric. -/
def quadLin (c : Fin 9 → ℝ) : V3 := ![c 6, c 7, c 8]

theorem quadric_eq (c : Fin 9 → ℝ) (p : V3) : quadric c p = p ⬝ᵥ (quadMat c *ᵥ p) + 2 * (quadLin c ⬝ᵥ p) := by
  simp [quadric, quadMat, quadLin, dotProduct, Matrix.mulVec, Fin.sum_univ_three]
  ring

theorem calQuadric_eq (c : Fin 9 → ℝ) : calQuadric (vec c []).data = ok (mat (quadMat c) []) := by
  rfl

theorem colOf_three (x : V3) : (⟨3, 1, [XR.fin (x 0), XR.fin (x 1), XR.fin (x 2)]⟩ : Mtx XR) = mat (colOf x) [] := rfl

/-- The result in terms of the fitted quadric. -/
theorem calMagnFast_eq (junk : ℕ → XR) (m : Mtx XR) (me : Option ℝ) (K : Matrix (Fin 3) (Fin 3) XR) (b : Fin 3 → XR) (t u : List XR)
    (hc : m.cols = 3) (hme : ∀ x, me = some x → 0 ≤ x) (c : Fin 9 → ℝ) (rc : ℤ)
    (hfit : staQuadFit junk m (Vec.uninit junk 9) = ok (rc, vec c [])) (hpd : (quadMat c).PosDef) :
    ∃ (L : Matrix (Fin 3) (Fin 3) ℝ) (x : V3),
      calMagnFast junk m (me.map XR.fin) (mtxOf K t) (vecOf b u) = ok (0, mat (me.getD 50 • L.transpose) t, vec x u) ∧
      (∀ i j, i < j → L i j = 0) ∧ (∀ i, 0 < L i i) ∧ L * L.transpose = quadMat c ∧ quadMat c *ᵥ x = quadLin c := by
  obtain ⟨U, hU⟩ := uninit_eq junk 3 3
  obtain ⟨U1, hU1⟩ := uninit_eq junk 3 1
  obtain ⟨L, hL, hlow, hpos, hLL⟩ := mtx_cholesky_correct (junk 0) (quadMat c) U [] [] hpd
  obtain ⟨C, hC, hAC⟩ := mtxInv3_uninit junk (quadMat c) hpd.det_pos.ne'
  refine ⟨L, C *ᵥ quadLin c, ?_, hlow, hpos, hLL, by rw [Matrix.mulVec_mulVec, hAC, Matrix.one_mulVec]⟩
  have hmeq : (me.map XR.fin).getD (lit 50) = XR.fin (me.getD 50) := by
    cases me <;> simp
  have h0 : 0 ≤ me.getD 50 := by
    cases me with
    | none => norm_num
    | some x => exact hme x rfl
  have h6 : rd (vec c []).data 6 = ok (XR.fin (c 6)) := rfl
  have h7 : rd (vec c []).data 7 = ok (XR.fin (c 7)) := rfl
  have h8 : rd (vec c []).data 8 = ok (XR.fin (c 8)) := rfl
  unfold calMagnFast
  rw [hmeq]
  dsimp only
  rw [if_neg (by simp [hc, h0]), hfit, ok_bind]
  dsimp only
  rw [calQuadric_eq, ok_bind, h6, ok_bind, h7, ok_bind, h8, ok_bind, hC]
  rw [hU] at *
  clear hC
  rw [hL, ok_bind]
  dsimp only
  rw [mtx_trans_real _ _ _ _ _ (by omega), ok_bind]
  dsimp only
  rw [mtx_scalar_mult_correct, ok_bind]
  dsimp only
  rw [show mtxCopy (mtxOf K t) (mat (me.getD 50 • L.transpose) []) = ok (0, mat (me.getD 50 • L.transpose) t) from mtx_copy_correct _ _ _ _,
    ok_bind]
  dsimp only
  rw [ok_bind]
  dsimp only
  rw [show (⟨3, 1, [XR.fin (c 6), XR.fin (c 7), XR.fin (c 8)]⟩ : Mtx XR) = mat (colOf (quadLin c)) [] from rfl, hU1, mtx_mult_correct,
    ok_bind, colOf_mul]
  rfl

theorem quadMat_symm (c : Fin 9 → ℝ) : (quadMat c)ᵀ = quadMat c := by
  ext i j
  fin_cases i <;> fin_cases j <;> rfl

/-- The corrected magnitude of a point of the quadric. -/
theorem magn_fast_len (c : Fin 9 → ℝ) (L : Matrix (Fin 3) (Fin 3) ℝ) (x : V3) (k : ℝ) (hL : L * L.transpose = quadMat c)
    (hx : quadMat c *ᵥ x = quadLin c) (p : V3) (hp : quadric c p = 1) :
    ((k • L.transpose) *ᵥ (p + x)) ⬝ᵥ ((k • L.transpose) *ᵥ (p + x)) = k ^ 2 * (1 + x ⬝ᵥ (quadMat c *ᵥ x)) := by
  have h1 : (Lᵀ *ᵥ (p + x)) ⬝ᵥ (Lᵀ *ᵥ (p + x)) = (p + x) ⬝ᵥ (quadMat c *ᵥ (p + x)) := by
    rw [← hL, ← Matrix.mulVec_mulVec, Matrix.dotProduct_mulVec (p + x), ← Matrix.mulVec_transpose]
  have h2 : x ⬝ᵥ (quadMat c *ᵥ p) = quadLin c ⬝ᵥ p := by
    rw [Matrix.dotProduct_mulVec, ← Matrix.mulVec_transpose, quadMat_symm, hx]
  have h3 : p ⬝ᵥ (quadMat c *ᵥ x) = quadLin c ⬝ᵥ p := by rw [hx, dotProduct_comm]
  rw [quadric_eq] at hp
  rw [Matrix.smul_mulVec, smul_dotProduct, dotProduct_smul, h1, Matrix.mulVec_add, dotProduct_add, add_dotProduct, add_dotProduct, h2, h3]
  simp only [smul_eq_mul]
  linear_combination k ^ 2 * hp

/-- C109, part: when the points fit an ellipsoid, `K` is an upper triangular matrix with a positive diagonal scaled by `me` (50 without `me`),
`-b` is the centre of the ellipsoid, and after `zsl_fus_cal_corr_vec` all points of the ellipsoid have the same magnitude, which is at least
`me` and is `me` exactly when there is no offset. Missing from the claim: that the magnitude is `me`, see `cal_magn_fast_radius`. -/
theorem cal_magn_fast_partial (junk : ℕ → XR) (m : Mtx XR) (me : Option ℝ) (K : Matrix (Fin 3) (Fin 3) XR) (b : Fin 3 → XR) (t u : List XR)
    (hc : m.cols = 3) (hme : ∀ x, me = some x → 0 ≤ x) (c : Fin 9 → ℝ) (rc : ℤ)
    (hfit : staQuadFit junk m (Vec.uninit junk 9) = ok (rc, vec c [])) (hpd : (quadMat c).PosDef) :
    ∃ (K' : Matrix (Fin 3) (Fin 3) ℝ) (b' : V3) (ρ : ℝ),
      calMagnFast junk m (me.map XR.fin) (mtxOf K t) (vecOf b u) = ok (0, mat K' t, vec b' u) ∧
      (∀ i j, j < i → K' i j = 0) ∧ (0 < me.getD 50 → ∀ i, 0 < K' i i) ∧
      (∀ p, quadric c p = quadric c (-b' - (p + b'))) ∧
      0 ≤ ρ ∧ (ρ = 0 ↔ b' = 0) ∧
      ∀ p, quadric c p = 1 → ∀ (z : Fin 3 → XR) (s w : List XR), ∃ q : V3,
        calCorrVec junk (vec p s) (mat K' t) (vec b' u) (vecOf z w) = ok (0, vec q w) ∧ q ⬝ᵥ q = (me.getD 50) ^ 2 * (1 + ρ) := by
  obtain ⟨L, x, h, hlow, hpos, hLL, hx⟩ := calMagnFast_eq junk m me K b t u hc hme c rc hfit hpd
  have hx0 : 0 ≤ x ⬝ᵥ (quadMat c *ᵥ x) := by
    have := hpd.posSemidef.dotProduct_mulVec_nonneg x
    simpa using this
  refine ⟨_, x, x ⬝ᵥ (quadMat c *ᵥ x), h, ?_, ?_, ?_, hx0, ?_, ?_⟩
  · intro i j hij
    rw [Matrix.smul_apply, Matrix.transpose_apply, hlow j i hij, smul_zero]
  · intro h0 i
    rw [Matrix.smul_apply, Matrix.transpose_apply, smul_eq_mul]
    exact mul_pos h0 (hpos i)
  · intro p
    have h2 : ∀ q : V3, quadric c q = (q + x) ⬝ᵥ (quadMat c *ᵥ (q + x)) - x ⬝ᵥ (quadMat c *ᵥ x) := by
      intro q
      have h2 : x ⬝ᵥ (quadMat c *ᵥ q) = quadLin c ⬝ᵥ q := by
        rw [Matrix.dotProduct_mulVec, ← Matrix.mulVec_transpose, quadMat_symm, hx]
      have h3 : q ⬝ᵥ (quadMat c *ᵥ x) = quadLin c ⬝ᵥ q := by rw [hx, dotProduct_comm]
      rw [quadric_eq, Matrix.mulVec_add, dotProduct_add, add_dotProduct, add_dotProduct, h2, h3]
      ring
    rw [h2, h2, show -x - (p + x) + x = -(p + x) by abel, Matrix.mulVec_neg, neg_dotProduct_neg]
  · constructor
    · intro h0
      by_contra hne
      have := hpd.dotProduct_mulVec_pos hne
      simp only [star_trivial] at this
      exact absurd h0 this.ne'
    · rintro rfl
      simp
  · intro p hp z s w
    exact ⟨_, cal_corr_vec_correct junk p x _ z s t u w, magn_fast_len c L x _ hLL hx p hp⟩

/-! ## A concrete calibration -/

/-- Nine readings on an ellipsoid with the centre (-1/2, -1/2, 1). -/
def magnPts : Matrix (Fin 9) (Fin 3) ℤ :=
  !![1, 0, -1; 1, 1, -1; 0, 0, -1; 1, 0, 0; 0, -1, 1; 0, -1, 0; -1, 0, 1; -1, -1, 0; 1, 1, 0]

def magnL : Matrix (Fin 9) (Fin 9) ℚ :=
  !![1, 0, 0, 0, 0, 0, 0, 0, 0;
    1/2, 1, 0, 0, 0, 0, 0, 0, 0;
    1/2, 1/7, 1, 0, 0, 0, 0, 0, 0;
    1, 6/7, -5/12, 1, 0, 0, 0, 0, 0;
    -1, 2/7, -11/12, -1/17, 1, 0, 0, 0, 0;
    -1/3, -6/7, -3/4, -3/17, 1/6, 1, 0, 0, 0;
    2/3, 0, 0, 0, 0, -1, 1, 0, 0;
    1/3, -6/7, -1/6, 26/17, -1/2, -1/2, 1/2, 1, 0;
    -1/3, 2/7, -1/3, -20/17, 1/6, -1/2, -9/14, 1, 1]

def magnU : Matrix (Fin 9) (Fin 9) ℚ :=
  !![6, 3, 3, 6, -6, -2, 4, 2, -2;
    0, 7/2, 1/2, 3, 1, -3, 0, -3, 1;
    0, 0, 24/7, -10/7, -22/7, -18/7, 0, -4/7, -8/7;
    0, 0, 0, 17/6, -1/6, -1/2, 0, 13/3, -10/3;
    0, 0, 0, 0, 48/17, 8/17, 0, -24/17, 8/17;
    0, 0, 0, 0, 0, 8/3, -8/3, -4/3, -4/3;
    0, 0, 0, 0, 0, 0, 56/3, 28/3, -12;
    0, 0, 0, 0, 0, 0, 0, 4, 4;
    0, 0, 0, 0, 0, 0, 0, 0, 16/7]

theorem magn_lu : ((quadDesignZ magnPts).transpose * quadDesignZ magnPts).map (Int.cast : ℤ → ℚ) = magnL * magnU := by
  decide +kernel

theorem magn_low (i j : Fin 9) : i < j → magnL i j = 0 := by
  have : ∀ x : Fin 9 × Fin 9, ¬ x.1.val < x.2.val ∨ magnL x.1 x.2 = 0 := by decide +kernel
  exact fun h => (this (i, j)).resolve_left (not_not.2 h)

theorem magn_one : ∀ i, magnL i i = 1 := by decide +kernel

theorem magn_up (i j : Fin 9) : j < i → magnU i j = 0 := by
  have : ∀ x : Fin 9 × Fin 9, ¬ x.2.val < x.1.val ∨ magnU x.1 x.2 = 0 := by decide +kernel
  exact fun h => (this (i, j)).resolve_left (not_not.2 h)

theorem magn_pivots : ∀ k : Fin 10, 0 < ∏ i : Fin k.val, magnU (Fin.castLE (Nat.le_of_lt_succ k.2) i) (Fin.castLE (Nat.le_of_lt_succ k.2) i) ∧
      ∏ i : Fin k.val, magnU (Fin.castLE (Nat.le_of_lt_succ k.2) i) (Fin.castLE (Nat.le_of_lt_succ k.2) i) ≤ 1000000 := by decide +kernel

theorem magn_minors (k : ℕ) (hk : k ≤ 9) :
    (((quadDesignZ magnPts).transpose * quadDesignZ magnPts).submatrix (Fin.castLE hk) (Fin.castLE hk)).det ≠ 0 ∧
      |(((quadDesignZ magnPts).transpose * quadDesignZ magnPts).submatrix (Fin.castLE hk) (Fin.castLE hk)).det| ≤ 1000000 := by
  have h := minors_of_lu _ magnL magnU magn_lu magn_low magn_one magn_up k hk
  obtain ⟨h1, h2⟩ := magn_pivots ⟨k, by omega⟩
  dsimp only at h1 h2
  rw [← h] at h1 h2
  have h1' : 0 < (((quadDesignZ magnPts).transpose * quadDesignZ magnPts).submatrix (Fin.castLE hk) (Fin.castLE hk)).det := by exact_mod_cast h1
  refine ⟨h1'.ne', ?_⟩
  rw [abs_of_pos h1']
  exact_mod_cast h2

/-- The ellipsoid through the nine readings. -/
noncomputable def magnQuad : Fin 9 → ℝ := ![3 / 2, 3 / 2, 1 / 2, -1, 1 / 2, 0, -1 / 4, 1 / 4, -1 / 4]

theorem magn_on (i : Fin 9) : quadric magnQuad (magnPts.map Int.cast i) = 1 := by
  fin_cases i <;> simp [quadric, magnQuad, magnPts] <;> norm_num

theorem magn_fit (junk : ℕ → XR) (t : List XR) :
    staQuadFit junk (mat (magnPts.map Int.cast) t) (Vec.uninit junk 9) = ok (0, vec magnQuad []) := by
  obtain ⟨c, h, -, hc⟩ := sta_quad_fit_integer junk magnPts (fun i => junk i) t [] (by omega) magn_minors
  rw [hc magnQuad magn_on] at h
  rw [vecUninit_eq]
  exact h

theorem magn_posDef : (quadMat magnQuad).PosDef := by
  refine Matrix.PosDef.of_dotProduct_mulVec_pos ?_ fun x hx => ?_
  · rw [Matrix.IsHermitian, Matrix.conjTranspose_eq_transpose_of_trivial, quadMat_symm]
  · have hq : star x ⬝ᵥ (quadMat magnQuad *ᵥ x) = 3 / 2 * (x 0 - 2 / 3 * x 1 + 1 / 3 * x 2) ^ 2 + 5 / 6 * (x 1 + 2 / 5 * x 2) ^ 2 +
        1 / 5 * x 2 ^ 2 := by
      simp [quadMat, magnQuad, dotProduct, Matrix.mulVec, Fin.sum_univ_three]
      ring
    rw [hq]
    by_contra hle
    have e2 : x 2 = 0 := by nlinarith [sq_nonneg (x 0 - 2 / 3 * x 1 + 1 / 3 * x 2), sq_nonneg (x 1 + 2 / 5 * x 2), sq_nonneg (x 2)]
    have e1 : x 1 = 0 := by rw [e2] at hle; nlinarith [sq_nonneg (x 0 - 2 / 3 * x 1), sq_nonneg (x 1)]
    have e0 : x 0 = 0 := by rw [e1, e2] at hle; nlinarith [sq_nonneg (x 0)]
    apply hx
    ext i
    fin_cases i <;> assumption

/-- C109, negation: the nine readings all lie on an ellipsoid, but after the calibration for a field of magnitude `k` their corrected squared
magnitude is 5/4 of `k²`. -/
theorem cal_magn_fast_radius (junk : ℕ → XR) (k : ℝ) (hk : 0 ≤ k) (K : Matrix (Fin 3) (Fin 3) XR) (b : Fin 3 → XR) (t u : List XR) :
    ∃ (K' : Matrix (Fin 3) (Fin 3) ℝ) (b' : V3),
      calMagnFast junk (mat (magnPts.map Int.cast) []) (some (XR.fin k)) (mtxOf K t) (vecOf b u) = ok (0, mat K' t, vec b' u) ∧
      ∀ (i : Fin 9) (z : Fin 3 → XR), ∃ q : V3,
        calCorrVec junk (vec (magnPts.map Int.cast i) []) (mat K' t) (vec b' u) (vecOf z []) = ok (0, vec q []) ∧ q ⬝ᵥ q = 5 / 4 * k ^ 2 := by
  obtain ⟨L, x, h, -, -, hLL, hx⟩ := calMagnFast_eq junk (mat (magnPts.map Int.cast) []) (some k) K b t u rfl
    (fun y hy => by simp at hy; rw [← hy]; exact hk) magnQuad 0 (magn_fit junk []) magn_posDef
  refine ⟨_, x, h, fun i z => ⟨_, cal_corr_vec_correct junk _ x _ z [] t u [], ?_⟩⟩
  rw [magn_fast_len magnQuad L x _ hLL hx _ (magn_on i)]
  have hx' : x = ![1 / 2, 1 / 2, -1] := by
    have hb : quadMat magnQuad *ᵥ ![1 / 2, 1 / 2, -1] = quadLin magnQuad := by
      ext i
      fin_cases i <;> simp [quadMat, magnQuad, quadLin, Matrix.mulVec, dotProduct, Fin.sum_univ_three] <;> norm_num
    have hinj := Matrix.mulVec_injective_iff_isUnit.2 ((Matrix.isUnit_iff_isUnit_det _).2 (isUnit_iff_ne_zero.2 magn_posDef.det_pos.ne'))
    exact hinj (hx.trans hb.symm)
  rw [hx, hx']
  simp [quadLin, magnQuad, dotProduct, Fin.sum_univ_three]
  ring

/-- C109: wrong shapes and a negative magnitude are refused without writing. -/
theorem cal_magn_fast_rejects {R : Type} [CReal R] (junk : ℕ → R) (m : Mtx R) (me : Option R) (K : Mtx R) (b : Vec R)
    (h : m.cols ≠ 3 ∨ K.rows ≠ 3 ∨ K.cols ≠ 3 ∨ b.sz ≠ 3 ∨ ∃ x, me = some x ∧ CReal.lt x (lit 0) = true) :
    calMagnFast junk m me K b = ok (-EINVAL, K, b) := by
  unfold calMagnFast
  dsimp only
  rw [if_pos]
  rcases h with h | h | h | h | ⟨x, rfl, h⟩
  · exact Or.inl h
  · exact Or.inr (Or.inl h)
  · exact Or.inr (Or.inr (Or.inl h))
  · exact Or.inr (Or.inr (Or.inr (Or.inl h)))
  · exact Or.inr (Or.inr (Or.inr (Or.inr h)))

end Verif
