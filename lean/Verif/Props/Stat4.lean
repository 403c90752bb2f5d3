import Verif.Props.Stat3
import Verif.Props.Matrices6
import Verif.Props.Decomp5

/-!
# Statistics: multiple linear regression (C84, C48)
-/

namespace Verif

open Out

variable {r c : ℕ}

/-- The design matrix: a column of ones in front. -/
def design (X : Matrix (Fin r) (Fin c) ℝ) : Matrix (Fin r) (Fin (c + 1)) ℝ := Matrix.of fun i => Fin.cons 1 (X i)

theorem design_mulVec (X : Matrix (Fin r) (Fin c) ℝ) (b : Fin (c + 1) → ℝ) (i : Fin r) :
    (design X).mulVec b i = b 0 + ∑ j, X i j * b j.succ := by
  rw [Matrix.mulVec, dotProduct, Fin.sum_univ_succ]
  simp [design]

theorem regResid_eq (d : Fin r → ℝ) (X : Matrix (Fin r) (Fin c) ℝ) (y : Fin r → ℝ) (b : Fin (c + 1) → ℝ) :
    regResid d X y b = ∑ i, d i * (y i - (design X).mulVec b i) ^ 2 := by
  simp only [regResid, design_mulVec]

/-- A solution of the (weighted) normal equations minimises the (weighted) sum of squares. -/
theorem normal_eq_min {k : ℕ} (d : Fin r → ℝ) (hd : ∀ i, 0 ≤ d i) (M : Matrix (Fin r) (Fin k) ℝ) (y : Fin r → ℝ) (b b' : Fin k → ℝ)
    (hb : ∀ j, ∑ i, M i j * (d i * (y i - M.mulVec b i)) = 0) :
    ∑ i, d i * (y i - M.mulVec b i) ^ 2 ≤ ∑ i, d i * (y i - M.mulVec b' i) ^ 2 := by
  have hdec : ∀ i, d i * (y i - M.mulVec b' i) ^ 2 = d i * (y i - M.mulVec b i) ^ 2 +
      2 * (d i * (y i - M.mulVec b i) * M.mulVec (b - b') i) + d i * (M.mulVec (b - b') i) ^ 2 := by
    intro i
    rw [Matrix.mulVec_sub, Pi.sub_apply]
    ring
  have hcross : ∑ i, d i * (y i - M.mulVec b i) * M.mulVec (b - b') i = 0 := by
    have : ∀ i, d i * (y i - M.mulVec b i) * M.mulVec (b - b') i = ∑ j, (b - b') j * (M i j * (d i * (y i - M.mulVec b i))) := by
      intro i
      have hm : M.mulVec (b - b') i = ∑ j, M i j * (b - b') j := rfl
      rw [hm, Finset.mul_sum]
      exact Finset.sum_congr rfl fun j _ => by ring
    rw [Finset.sum_congr rfl fun i _ => this i, Finset.sum_comm]
    apply Finset.sum_eq_zero
    intro j _
    rw [← Finset.mul_sum, hb j, mul_zero]
  rw [Finset.sum_congr rfl fun i _ => hdec i, Finset.sum_add_distrib, Finset.sum_add_distrib, ← Finset.mul_sum, hcross]
  have : 0 ≤ ∑ i, d i * (M.mulVec (b - b') i) ^ 2 := Finset.sum_nonneg fun i _ => mul_nonneg (hd i) (sq_nonneg _)
  linarith

theorem onesLoop (junk : ℕ → XR) (r : ℕ) :
    forN r (fun i a => wr a i (lit 1)) (junkArr junk r) = ok (arr (fun _ : Fin r => (1 : ℝ)) []) := by
  rw [junkArr_eq, forN_write (List.ofFn fun _ : Fin r => XR.fin 1) (by simp) (by simp [arrOf])]
  · have hdrop : (arrOf (fun i : Fin r => junk i) []).drop r = [] := vecOf_drop _ _
    rw [hdrop]
    rfl
  · intro i hi t _
    rw [XR.lit_eq]
    simp

theorem regExpand_eq (junk : ℕ → XR) (X : Matrix (Fin r) (Fin c) ℝ) (t : List XR) :
    regExpand junk (mat X t) = ok (mat (design X) []) := by
  obtain ⟨U, hU⟩ := uninit_eq junk r (c + 1)
  rw [regExpand, mat_rows, mat_cols, hU, mtx_init_null, ok_bind]
  dsimp only
  rw [onesLoop, ok_bind, show (0 : ℕ) = ((0 : Fin (c + 1)) : ℕ) from rfl, mtx_setCol, ok_bind]
  dsimp only
  have key : (forN c (fun j (s : Mtx XR × List XR) => do
      let (_, a) ← mtxGetCol (mat X t) j s.2
      let (_, xe) ← mtxSetCol s.1 (j + 1) a
      return (xe, a)) (mtxOf ((Matrix.of fun (_ : Fin r) (_ : Fin (c + 1)) => (lit 0 : XR)).updateCol 0 fun _ => XR.fin 1) [],
        arr (fun _ : Fin r => (1 : ℝ)) [])).sat fun s => ∃ y : Fin r → XR, s = (mat (design X) [], arrOf y []) := by
    refine Out.sat.mono (P := fun s => ∃ y : Fin r → XR, s = (mtxOf (Matrix.of fun (i : Fin r) (k : Fin (c + 1)) =>
      if k.val ≤ c then XR.fin (design X i k) else lit 0) [], arrOf y [])) ?_ ?_
    · refine forN_sat (fun j s => ∃ y : Fin r → XR, s = (mtxOf (Matrix.of fun (i : Fin r) (k : Fin (c + 1)) =>
        if k.val ≤ j then XR.fin (design X i k) else lit 0) [], arrOf y [])) ?_ ?_
      · refine ⟨fun _ => XR.fin 1, ?_⟩
        refine Prod.ext ?_ rfl
        dsimp only
        congr 1
        ext i k
        rw [Matrix.updateCol_apply, Matrix.of_apply]
        by_cases hk : k = 0
        · subst hk
          simp [design]
        · rw [if_neg hk]
          have hk' : ¬ k.val ≤ 0 := by rw [Fin.ext_iff] at hk; simpa using hk
          exact (if_neg hk').symm
      · rintro j hj s ⟨y, rfl⟩
        dsimp only
        rw [mat_getCol X t y [] ⟨j, hj⟩, ok_bind]
        dsimp only
        rw [show j + 1 = ((⟨j + 1, by omega⟩ : Fin (c + 1)) : ℕ) from rfl, mtx_setCol, ok_bind]
        dsimp only
        rw [pure_eq, sat_ok]
        refine ⟨fun i => XR.fin (X i ⟨j, hj⟩), ?_⟩
        refine Prod.ext ?_ rfl
        dsimp only
        congr 1
        ext i k
        rw [Matrix.updateCol_apply, Matrix.of_apply, Matrix.of_apply]
        by_cases hk : k = ⟨j + 1, by omega⟩
        · rw [if_pos hk, if_pos (by rw [hk])]
          subst hk
          congr 1
        · rw [if_neg hk]
          refine if_congr ?_ rfl rfl
          rw [Fin.ext_iff] at hk
          dsimp only at hk
          omega
    · rintro s ⟨y, rfl⟩
      refine ⟨y, Prod.ext ?_ rfl⟩
      dsimp only
      unfold mat
      congr 1
      ext i k
      rw [Matrix.of_apply, if_pos (by omega)]
      rfl
  obtain ⟨s, hs, y, rfl⟩ := key
  exact (congrArg (fun o : Out (Mtx XR × List XR) => o >>= fun x => pure x.1) hs).trans rfl

/-- The column matrix of a vector. -/
def colMat (y : Fin r → ℝ) : Matrix (Fin r) (Fin 1) ℝ := Matrix.of fun i _ => y i

theorem mtxFromArr_vec (junk : ℕ → XR) (y : Fin r → ℝ) (u : List XR) :
    mtxFromArr (Mtx.uninit junk r 1) (vec y u).data = ok (0, mat (colMat y) []) := by
  obtain ⟨U, hU⟩ := uninit_eq junk r 1
  rw [hU, mtx_from_arr_correct _ _ _ (by rw [vec_data]; simp [arr])]
  congr 2
  unfold mat
  congr 1
  ext i j
  rw [Matrix.of_apply, Matrix.map_apply, colMat, Matrix.of_apply]
  have : (vec y u).data[i.val]? = some (XR.fin (y i)) := (vec_is y u).2 i
  have hj : j.val = 0 := by omega
  have h2 : i.val * 1 + j.val = i.val := by omega
  simp only [h2]
  rw [List.getElem?_eq_some_iff] at this
  exact this.2

theorem mat_col_rd (B : Matrix (Fin r) (Fin 1) ℝ) (t : List XR) (i : Fin r) : rd (mat B t).data i = ok (XR.fin (B i 0)) := by
  unfold mat
  rw [mtxOf_eq]
  unfold mkM
  have := mkD_rd (r := r) (c := 1) (ext (B.map XR.fin)) t i.2 (Nat.zero_lt_one)
  rw [Nat.mul_one, Nat.add_zero] at this
  dsimp only
  rw [this, ext_lt _ i.2 Nat.zero_lt_one]
  rfl

theorem vecFromArr_mat (b : Fin r → XR) (v : List XR) (B : Matrix (Fin r) (Fin 1) ℝ) :
    vecFromArr (vecOf b v) (mat B []).data = ok (0, vec (fun i => B i 0) v) := by
  have hlen : (mat B []).data.length = r := by unfold mat mtxOf; simp
  rw [vec_from_arr_correct _ _ (vecOf_wf b v) (by rw [vecOf_sz, hlen]), vecOf_sz, vecOf_drop]
  congr 2
  refine vec_ext _ _ _ ?_
  rw [List.take_of_length_le hlen.le]
  apply List.ext_getElem
  · rw [hlen]; simp
  · intro i h1 h2
    rw [hlen] at h1
    have := mat_col_rd B [] ⟨i, h1⟩
    rw [rd_lt (by rw [hlen]; exact h1)] at this
    simp only [ok.injEq] at this
    rw [List.getElem_ofFn]
    exact this

theorem regQuality_eq (junk : ℕ → XR) (X : Matrix (Fin r) (Fin c) ℝ) (B : Matrix (Fin (c + 1)) (Fin 1) ℝ) (y : Fin r → ℝ) (u : List XR)
    (hr : 1 ≤ r) :
    regQuality junk (mat (design X) []) (mat B []) (mat (colMat y) []) (vec y u) =
      ok (XR.fin 1 - XR.fin (regResid 1 X y fun j => B j 0) / XR.fin (∑ i, (y i - meanOf y) ^ 2)) := by
  obtain ⟨U, hU⟩ := uninit_eq junk r 1
  rw [regQuality, mat_rows, hU, mtx_mult_correct, ok_bind]
  dsimp only
  rw [(mtx_add_sub_correct (colMat y) (design X * B) U [] [] []).2, ok_bind]
  dsimp only
  rw [staMean_vec y u _ hr, ok_bind]
  dsimp only
  have hE : ∀ i : Fin r, (colMat y - design X * B) i 0 = y i - (design X).mulVec (fun j => B j 0) i := by
    intro i
    rw [Matrix.sub_apply, Matrix.mul_apply]
    rfl
  have key := forN_eq (n := r) (s := ((lit 0, lit 0) : XR × XR)) (f := fun g (s : XR × XR) => do
      let a ← rd (mat (colMat y - design X * B) []).data g
      let b ← rd (vec y u).data g
      return (s.1 + a * a, s.2 + (b - XR.fin (meanOf y)) * (b - XR.fin (meanOf y))))
    (fun k => (XR.fin (∑ i ∈ Finset.univ.filter (fun i : Fin r => i.val < k), (y i - (design X).mulVec (fun j => B j 0) i) ^ 2),
      XR.fin (∑ i ∈ Finset.univ.filter (fun i : Fin r => i.val < k), (y i - meanOf y) ^ 2))) (by simp) ?_
  · rw [key, ok_bind, pure_eq]
    have hall : (Finset.univ.filter fun i : Fin r => i.val < r) = Finset.univ := by
      ext i; simp
    rw [hall, regResid_eq, XR.lit_eq, show ((1 : ℚ) : ℝ) = 1 by norm_num]
    simp
  · intro k hk
    have hins : (Finset.univ.filter fun i : Fin r => i.val < k + 1) = insert ⟨k, hk⟩ (Finset.univ.filter fun i : Fin r => i.val < k) := by
      ext i
      simp only [Finset.mem_filter, Finset.mem_univ, true_and, Finset.mem_insert, Fin.ext_iff]
      omega
    dsimp only
    rw [show rd (mat (colMat y - design X * B) []).data k = _ from mat_col_rd _ [] ⟨k, hk⟩, ok_bind,
      show rd (vec y u).data k = _ from vec_rd y u ⟨k, hk⟩, ok_bind, hE, hins, Finset.sum_insert (by simp), Finset.sum_insert (by simp)]
    simp only [XR.fin_sub, XR.fin_mul, XR.fin_add, pure_eq]
    congr 3 <;> ring

theorem det_guard (a : ℝ) (h : 1e-6 ≤ |a|) : ¬ (CReal.lt (CReal.abs (XR.fin a)) (lit 1e-6) = true) := by
  rw [XR.fin_abs, XR.lit_eq, XR.fin_lt]
  norm_num at h ⊢
  exact h

/-- The result of the regression in terms of the matrix that `zsl_mtx_inv` delivers. -/
theorem staMultLinearReg_eq (junk : ℕ → XR) (X : Matrix (Fin r) (Fin c) ℝ) (y : Fin r → ℝ) (b : Fin (c + 1) → XR) (t u v : List XR) (q : XR)
    (hr : 1 ≤ r) (hdet : 1e-6 ≤ |((design X).transpose * design X).det|) (rc : ℤ) (C : Matrix (Fin (c + 1)) (Fin (c + 1)) ℝ)
    (hinv : mtxInv junk (mat ((design X).transpose * design X) []) (Mtx.uninit junk (c + 1) (c + 1)) = ok (rc, mat C [])) :
    staMultLinearReg junk (mat X t) (vec y u) (vecOf b v) q =
      ok (0, vec (fun j => (C * (design X).transpose * colMat y) j 0) v,
        XR.fin 1 - XR.fin (regResid 1 X y fun j => (C * (design X).transpose * colMat y) j 0) / XR.fin (∑ i, (y i - meanOf y) ^ 2)) := by
  obtain ⟨U1, hU1⟩ := uninit_eq junk (c + 1) r
  obtain ⟨U2, hU2⟩ := uninit_eq junk (c + 1) (c + 1)
  obtain ⟨U3, hU3⟩ := uninit_eq junk (c + 1) 1
  rw [staMultLinearReg, if_neg (by simp), if_neg (by simp; omega), regExpand_eq, ok_bind, mat_rows, mat_cols, hU1,
    mtx_trans_real _ _ _ _ _ (by omega), ok_bind]
  dsimp only
  rw [hU2] at hinv ⊢
  rw [mtx_mult_correct, ok_bind]
  dsimp only
  rw [mtx_deter_correct, ok_bind]
  dsimp only
  rw [if_neg (det_guard _ hdet), hinv, ok_bind]
  dsimp only
  rw [vec_sz, mtxFromArr_vec, ok_bind]
  dsimp only
  rw [mtx_mult_correct, ok_bind]
  dsimp only
  rw [hU3, mtx_mult_correct, ok_bind]
  dsimp only
  rw [vecFromArr_mat, ok_bind]
  dsimp only
  rw [regQuality_eq _ _ _ _ _ hr, ok_bind]
  rfl

theorem normal_eq_of_inv {k : ℕ} (D : Matrix (Fin r) (Fin r) ℝ) (M : Matrix (Fin r) (Fin k) ℝ) (y : Fin r → ℝ)
    (C : Matrix (Fin k) (Fin k) ℝ) (hC : M.transpose * D * M * C = 1) :
    (M.transpose * D).mulVec (y - M.mulVec fun j => (C * (M.transpose * D) * colMat y) j 0) = 0 := by
  have hb : (fun j => (C * (M.transpose * D) * colMat y) j 0) = (C * (M.transpose * D)).mulVec y := by
    funext j
    rw [Matrix.mul_apply]
    rfl
  rw [hb, Matrix.mulVec_sub, Matrix.mulVec_mulVec, Matrix.mulVec_mulVec, ← Matrix.mul_assoc, ← Matrix.mul_assoc, hC,
    Matrix.one_mul, sub_self]

/-- C84, part: whenever the inverse computed inside is exact (see C26) the coefficients minimise the sum of squared residuals, and the
coefficient of determination is 1 - SSR / SST, which lies in [0, 1]. Missing: designs for which `zsl_mtx_inv` is not exact. -/
theorem sta_mult_linear_reg_partial (junk : ℕ → XR) (X : Matrix (Fin r) (Fin c) ℝ) (y : Fin r → ℝ) (b : Fin (c + 1) → XR) (t u v : List XR)
    (q : XR) (hdet : 1e-6 ≤ |((design X).transpose * design X).det|) (hy : NonConst y) (rc : ℤ)
    (C : Matrix (Fin (c + 1)) (Fin (c + 1)) ℝ)
    (hinv : mtxInv junk (mat ((design X).transpose * design X) []) (Mtx.uninit junk (c + 1) (c + 1)) = ok (rc, mat C []))
    (hC : (design X).transpose * design X * C = 1) :
    ∃ (β : Fin (c + 1) → ℝ) (R : ℝ), staMultLinearReg junk (mat X t) (vec y u) (vecOf b v) q = ok (0, vec β v, XR.fin R) ∧
      (∀ β', regResid 1 X y β ≤ regResid 1 X y β') ∧ R = 1 - regResid 1 X y β / ∑ i, (y i - meanOf y) ^ 2 ∧ 0 ≤ R ∧ R ≤ 1 := by
  have hr := hy.pos
  have hpos := sxx_pos y hy
  have e := staMultLinearReg_eq junk X y b t u v q hr hdet rc C hinv
  rw [XR.fin_div hpos.ne', XR.fin_sub] at e
  have hmin : ∀ β', regResid 1 X y (fun j => (C * (design X).transpose * colMat y) j 0) ≤ regResid 1 X y β' := by
    intro β'
    rw [regResid_eq, regResid_eq]
    refine normal_eq_min 1 (fun _ => zero_le_one) _ _ _ _ fun j => ?_
    have h := congrFun (normal_eq_of_inv 1 (design X) y C (by rw [Matrix.mul_one]; exact hC)) j
    rw [Matrix.mul_one] at h
    simp only [Pi.one_apply, one_mul]
    exact h
  refine ⟨_, _, e, hmin, rfl, ?_, ?_⟩
  · rw [sub_nonneg, div_le_one hpos]
    refine (hmin (Fin.cons (meanOf y) 0)).trans (le_of_eq ?_)
    simp [regResid]
  · have : 0 ≤ regResid 1 X y (fun j => (C * (design X).transpose * colMat y) j 0) :=
      Finset.sum_nonneg fun i _ => mul_nonneg zero_le_one (sq_nonneg _)
    have := div_nonneg this hpos.le
    linarith

/-- The inverse of a 3x3 matrix does not depend on what the output held before. -/
theorem mtxInv3_uninit (junk : ℕ → XR) (A : Matrix (Fin 3) (Fin 3) ℝ) (hdet : A.det ≠ 0) :
    ∃ C : Matrix (Fin 3) (Fin 3) ℝ, mtxInv junk (mat A []) (Mtx.uninit junk 3 3) = ok (0, mat C []) ∧ A * C = 1 := by
  obtain ⟨U, hU⟩ := uninit_eq junk 3 3
  obtain ⟨C, h, h1, -⟩ := mtx_inv_3x3_correct (junk 0) A U [] [] hdet
  refine ⟨C, ?_, h1⟩
  unfold mtxInv
  rw [if_pos (by rfl), hU]
  exact h

/-- C84: with two predictors nothing has to be assumed about the inverse. -/
theorem sta_mult_linear_reg_two (junk : ℕ → XR) (X : Matrix (Fin r) (Fin 2) ℝ) (y : Fin r → ℝ) (b : Fin 3 → XR) (t u v : List XR)
    (q : XR) (hdet : 1e-6 ≤ |((design X).transpose * design X).det|) (hy : NonConst y) :
    ∃ (β : Fin 3 → ℝ) (R : ℝ), staMultLinearReg junk (mat X t) (vec y u) (vecOf b v) q = ok (0, vec β v, XR.fin R) ∧
      (∀ β', regResid 1 X y β ≤ regResid 1 X y β') ∧ R = 1 - regResid 1 X y β / ∑ i, (y i - meanOf y) ^ 2 ∧ 0 ≤ R ∧ R ≤ 1 := by
  have hd : ((design X).transpose * design X).det ≠ 0 := by
    intro h; rw [h] at hdet; norm_num at hdet
  obtain ⟨C, h, hC⟩ := mtxInv3_uninit junk _ hd
  exact sta_mult_linear_reg_partial junk X y b t u v q hdet hy 0 C h hC

/-- C84: a design that is singular, or nearly so, is refused, and the outputs are left alone. -/
theorem sta_mult_linear_reg_singular (junk : ℕ → XR) (X : Matrix (Fin r) (Fin c) ℝ) (y : Fin r → ℝ) (b : Fin (c + 1) → XR)
    (t u v : List XR) (q : XR) (hr : 1 ≤ r) (hdet : |((design X).transpose * design X).det| < 1e-6) :
    staMultLinearReg junk (mat X t) (vec y u) (vecOf b v) q = ok (-EINVAL, vecOf b v, q) := by
  obtain ⟨U1, hU1⟩ := uninit_eq junk (c + 1) r
  obtain ⟨U2, hU2⟩ := uninit_eq junk (c + 1) (c + 1)
  rw [staMultLinearReg, if_neg (by simp), if_neg (by simp; omega), regExpand_eq, ok_bind, mat_rows, mat_cols, hU1,
    mtx_trans_real _ _ _ _ _ (by omega), ok_bind]
  dsimp only
  rw [hU2, mtx_mult_correct, ok_bind]
  dsimp only
  rw [mtx_deter_correct, ok_bind]
  dsimp only
  rw [if_pos]
  · rfl
  · rw [XR.fin_abs, XR.lit_eq, XR.fin_lt]
    norm_num at hdet ⊢
    exact hdet

/-- C84: shape mismatch. -/
theorem sta_mult_linear_reg_mismatch {R : Type} [CReal R] (junk : ℕ → R) (x : Mtx R) (y b : Vec R) (q : R)
    (h : x.rows ≠ y.sz ∨ x.cols + 1 ≠ b.sz) : staMultLinearReg junk x y b q = ok (-EINVAL, b, q) := by
  rw [staMultLinearReg, if_pos h]

/-! ## The weighted version -/

theorem smallLoop (w : Fin r → ℝ) (s : List XR) :
    forRet r (fun k (_ : Unit) => do
      let a ← rd (vec w s).data k
      if CReal.lt (CReal.abs a) (lit 1e-6) then return Ctl.ret () else return Ctl.next ()) () =
      ok (if ∃ i, |w i| < 1e-6 then Ctl.ret () else Ctl.next ()) := by
  classical
  have hcast : (((1e-6 : ℚ)) : ℝ) = 1e-6 := by norm_num
  rw [forRet_unit (fun i => if h : i < r then decide (|w ⟨i, h⟩| < 1e-6) else false) ()]
  · congr 1
    refine if_congr ?_ rfl rfl
    rw [List.any_eq_true]
    constructor
    · rintro ⟨i, hi, h⟩
      rw [List.mem_range] at hi
      rw [dif_pos hi] at h
      exact ⟨⟨i, hi⟩, by simpa using h⟩
    · rintro ⟨i, h⟩
      exact ⟨i, List.mem_range.2 i.2, by simpa using h⟩
  · intro i hi
    rw [show rd (vec w s).data i = ok (XR.fin (w ⟨i, hi⟩)) from vec_rd w s ⟨i, hi⟩, ok_bind, dif_pos hi, XR.fin_abs, XR.lit_eq, hcast]
    by_cases h : |w ⟨i, hi⟩| < 1e-6
    · rw [if_pos (by rw [XR.fin_lt]; exact h)]; simp [h]
    · rw [if_neg (by rw [XR.fin_lt]; exact h)]; simp [h]

/-- C48, part: the weights are left alone if the shapes do not match. -/
theorem sta_weighted_reg_mismatch_partial {R : Type} [CReal R] (junk : ℕ → R) (x : Mtx R) (y w b : Vec R) (q : R)
    (h : x.rows ≠ y.sz ∨ x.cols + 1 ≠ b.sz ∨ x.rows ≠ w.sz) : staWeightedMultLinearReg junk x y w b q = ok (-EINVAL, w, b, q) := by
  rw [staWeightedMultLinearReg, if_pos h]

/-- C48, part: the weights are left alone if one of them is too small. -/
theorem sta_weighted_reg_small_partial (junk : ℕ → XR) (X : Matrix (Fin r) (Fin c) ℝ) (y w : Fin r → ℝ) (b : Fin (c + 1) → XR)
    (t u s v : List XR) (q : XR) (h : ∃ i, |w i| < 1e-6) :
    staWeightedMultLinearReg junk (mat X t) (vec y u) (vec w s) (vecOf b v) q = ok (-EINVAL, vec w s, vecOf b v, q) := by
  rw [staWeightedMultLinearReg, if_neg (by simp), vec_sz, smallLoop, if_pos h, ok_bind]
  rfl

theorem weightLoop (w : Fin r → ℝ) (hw : ∀ i, w i ≠ 0) (s : List XR) :
    forN r (fun k (st : List XR × Mtx XR) => do
      let a ← rd st.1 k
      let wd ← wr st.1 k (lit 1 / a)
      let a ← rd wd k
      let (_, idx) ← mtxScalarMultRowD st.2 k a
      return (wd, idx)) ((vec w s).data, mat (1 : Matrix (Fin r) (Fin r) ℝ) []) =
    ok ((vec (fun i => 1 / w i) s).data, mat (Matrix.diagonal fun i => 1 / w i) []) := by
  have key := forN_eq (n := r) (s := ((vec w s).data, mat (1 : Matrix (Fin r) (Fin r) ℝ) [])) (f := fun k (st : List XR × Mtx XR) => do
      let a ← rd st.1 k
      let wd ← wr st.1 k (lit 1 / a)
      let a ← rd wd k
      let (_, idx) ← mtxScalarMultRowD st.2 k a
      return (wd, idx))
    (fun k => ((vec (fun i => if i.val < k then 1 / w i else w i) s).data,
      mat (Matrix.diagonal fun i : Fin r => if i.val < k then 1 / w i else 1) [])) (by simp) ?_
  · rw [key]
    simp
  · intro k hk
    dsimp only
    rw [show rd _ k = _ from vec_rd _ s ⟨k, hk⟩, ok_bind, if_neg (by simp), XR.lit_eq, show ((1 : ℚ) : ℝ) = 1 by norm_num,
      XR.fin_div (hw _)]
    have hwr : wr (vec (fun i => if i.val < k then 1 / w i else w i) s).data k (XR.fin (1 / w ⟨k, hk⟩)) =
        ok (vec (fun i => if i.val < k + 1 then 1 / w i else w i) s).data := by
      rw [vec_data, vec_data]
      refine (arr_wr _ s ⟨k, hk⟩ _).trans ?_
      congr 2
      funext i
      rw [Function.update_apply]
      by_cases h : i = ⟨k, hk⟩
      · subst h; simp
      · rw [if_neg h]
        rw [Fin.ext_iff] at h
        dsimp only at h ⊢
        exact if_congr (by omega) rfl rfl
    rw [hwr, ok_bind, show rd _ k = _ from vec_rd _ s ⟨k, hk⟩, ok_bind, if_pos (by simp)]
    unfold mat
    rw [show mtxScalarMultRowD _ k _ = _ from mtx_scalar_mult_row_correct _ _ ⟨k, hk⟩ _, ok_bind, pure_eq]
    dsimp only
    congr 3
    ext i j
    rw [Matrix.updateRow_apply]
    by_cases h : i = ⟨k, hk⟩
    · subst h
      rw [if_pos rfl, Matrix.map_apply, Matrix.map_apply, XR.fin_mul]
      congr 1
      rw [Matrix.diagonal_apply, Matrix.diagonal_apply]
      by_cases h2 : (⟨k, hk⟩ : Fin r) = j
      · rw [if_pos h2, if_pos h2, if_neg (by simp), if_pos (by simp), one_mul]
      · rw [if_neg h2, if_neg h2, zero_mul]
    · rw [if_neg h, Matrix.map_apply, Matrix.map_apply, Matrix.diagonal_apply, Matrix.diagonal_apply]
      congr 1
      refine if_congr Iff.rfl (if_congr ?_ rfl rfl) rfl
      rw [Fin.ext_iff] at h
      dsimp only at h
      omega

/-- The weighted regression in terms of the matrix that `zsl_mtx_inv` delivers. -/
theorem staWeightedMultLinearReg_eq (junk : ℕ → XR) (X : Matrix (Fin r) (Fin c) ℝ) (y w : Fin r → ℝ) (b : Fin (c + 1) → XR)
    (t u s v : List XR) (q : XR) (hr : 1 ≤ r) (hw : ∀ i, 1e-6 ≤ |w i|)
    (hdet : 1e-6 ≤ |((design X).transpose * Matrix.diagonal (fun i => 1 / w i) * design X).det|) (rc : ℤ)
    (C : Matrix (Fin (c + 1)) (Fin (c + 1)) ℝ)
    (hinv : mtxInv junk (mat ((design X).transpose * Matrix.diagonal (fun i => 1 / w i) * design X) []) (Mtx.uninit junk (c + 1) (c + 1)) =
      ok (rc, mat C [])) :
    staWeightedMultLinearReg junk (mat X t) (vec y u) (vec w s) (vecOf b v) q =
      ok (0, vec (fun i => 1 / w i) s, vec (fun j => (C * ((design X).transpose * Matrix.diagonal fun i => 1 / w i) * colMat y) j 0) v,
        XR.fin 1 - XR.fin (regResid 1 X y fun j => (C * ((design X).transpose * Matrix.diagonal fun i => 1 / w i) * colMat y) j 0) /
          XR.fin (∑ i, (y i - meanOf y) ^ 2)) := by
  obtain ⟨U0, hU0⟩ := uninit_eq junk r r
  obtain ⟨U1, hU1⟩ := uninit_eq junk (c + 1) r
  obtain ⟨U2, hU2⟩ := uninit_eq junk (c + 1) (c + 1)
  obtain ⟨U3, hU3⟩ := uninit_eq junk (c + 1) 1
  have hw0 : ∀ i, w i ≠ 0 := by
    intro i h
    have := hw i
    rw [h] at this
    norm_num at this
  have hid : mtxInit (mtxOf U0 []) (some entryFnIdentity) = ok (0, mat (1 : Matrix (Fin r) (Fin r) ℝ) []) := by
    rw [mtx_init_identity]
    unfold mat
    congr 3
    funext i j
    simp only [Matrix.of_apply, Matrix.map_apply, Matrix.one_apply, Fin.ext_iff]
    split_ifs <;> simp
  rw [staWeightedMultLinearReg, if_neg (by simp), vec_sz, smallLoop, if_neg (by push Not; exact hw), ok_bind]
  dsimp only
  rw [if_neg (by simp; omega), hU0, hid, ok_bind]
  dsimp only
  rw [weightLoop w hw0 s, ok_bind]
  dsimp only
  rw [regExpand_eq, ok_bind, mat_rows, mat_cols, hU1, mtx_trans_real _ _ _ _ _ (by omega), ok_bind]
  dsimp only
  rw [mtx_mult_correct, ok_bind]
  dsimp only
  rw [hU2] at hinv ⊢
  rw [mtx_mult_correct, ok_bind]
  dsimp only
  rw [mtx_deter_correct, ok_bind]
  dsimp only
  rw [if_neg (det_guard _ hdet), hinv, ok_bind]
  dsimp only
  rw [vec_sz, mtxFromArr_vec, ok_bind]
  dsimp only
  rw [mtx_mult_correct, ok_bind]
  dsimp only
  rw [hU3, mtx_mult_correct, ok_bind]
  dsimp only
  rw [vecFromArr_mat, ok_bind]
  dsimp only
  rw [regQuality_eq _ _ _ _ _ hr, ok_bind]
  rfl

/-- C84, part: whenever the inverse computed inside is exact, the weighted regression minimises the sum of the squared residuals, each
divided by its weight. -/
theorem sta_weighted_reg_partial (junk : ℕ → XR) (X : Matrix (Fin r) (Fin c) ℝ) (y w : Fin r → ℝ) (b : Fin (c + 1) → XR)
    (t u s v : List XR) (q : XR) (hr : 1 ≤ r) (hw : ∀ i, 1e-6 ≤ w i)
    (hdet : 1e-6 ≤ |((design X).transpose * Matrix.diagonal (fun i => 1 / w i) * design X).det|) (rc : ℤ)
    (C : Matrix (Fin (c + 1)) (Fin (c + 1)) ℝ)
    (hinv : mtxInv junk (mat ((design X).transpose * Matrix.diagonal (fun i => 1 / w i) * design X) []) (Mtx.uninit junk (c + 1) (c + 1)) =
      ok (rc, mat C []))
    (hC : (design X).transpose * Matrix.diagonal (fun i => 1 / w i) * design X * C = 1) :
    ∃ (w' : Vec XR) (β : Fin (c + 1) → ℝ) (R : XR),
      staWeightedMultLinearReg junk (mat X t) (vec y u) (vec w s) (vecOf b v) q = ok (0, w', vec β v, R) ∧
      ∀ β', regResid (fun i => 1 / w i) X y β ≤ regResid (fun i => 1 / w i) X y β' := by
  refine ⟨_, _, _, staWeightedMultLinearReg_eq junk X y w b t u s v q hr (fun i => ?_) hdet rc C hinv, fun β' => ?_⟩
  · exact (hw i).trans (le_abs_self _)
  · rw [regResid_eq, regResid_eq]
    refine normal_eq_min _ (fun i => ?_) _ _ _ _ fun j => ?_
    · have : 0 < w i := lt_of_lt_of_le (by norm_num) (hw i)
      positivity
    · have h := congrFun (normal_eq_of_inv (Matrix.diagonal fun i => 1 / w i) (design X) y C hC) j
      simp only [Matrix.mulVec, dotProduct, Matrix.mul_diagonal, Matrix.transpose_apply, Pi.sub_apply, Pi.zero_apply] at h
      rw [← h]
      refine Finset.sum_congr rfl fun i _ => ?_
      simp only [Matrix.mulVec, dotProduct]
      ring

/-- C84: with two predictors nothing has to be assumed about the inverse. -/
theorem sta_weighted_reg_two (junk : ℕ → XR) (X : Matrix (Fin r) (Fin 2) ℝ) (y w : Fin r → ℝ) (b : Fin 3 → XR)
    (t u s v : List XR) (q : XR) (hr : 1 ≤ r) (hw : ∀ i, 1e-6 ≤ w i)
    (hdet : 1e-6 ≤ |((design X).transpose * Matrix.diagonal (fun i => 1 / w i) * design X).det|) :
    ∃ (w' : Vec XR) (β : Fin 3 → ℝ) (R : XR),
      staWeightedMultLinearReg junk (mat X t) (vec y u) (vec w s) (vecOf b v) q = ok (0, w', vec β v, R) ∧
      ∀ β', regResid (fun i => 1 / w i) X y β ≤ regResid (fun i => 1 / w i) X y β' := by
  have hd : ((design X).transpose * Matrix.diagonal (fun i => 1 / w i) * design X).det ≠ 0 := by
    intro h; rw [h] at hdet; norm_num at hdet
  obtain ⟨C, h, hC⟩ := mtxInv3_uninit junk _ hd
  exact sta_weighted_reg_partial junk X y w b t u s v q hr hw hdet 0 C h hC

/-- C48 fails: on success the caller's weights are replaced by their reciprocals. (Two predictors, for any design, observations and
weights that are accepted.) -/
theorem sta_weighted_reg_clobbers (junk : ℕ → XR) (X : Matrix (Fin r) (Fin 2) ℝ) (y w : Fin r → ℝ) (b : Fin 3 → XR)
    (t u s v : List XR) (q : XR) (hr : 1 ≤ r) (hw : ∀ i, 1e-6 ≤ |w i|)
    (hdet : 1e-6 ≤ |((design X).transpose * Matrix.diagonal (fun i => 1 / w i) * design X).det|) :
    ∃ b' q', staWeightedMultLinearReg junk (mat X t) (vec y u) (vec w s) (vecOf b v) q = ok (0, vec (fun i => 1 / w i) s, b', q') := by
  have hd : ((design X).transpose * Matrix.diagonal (fun i => 1 / w i) * design X).det ≠ 0 := by
    intro h; rw [h] at hdet; norm_num at hdet
  obtain ⟨C, h, hC⟩ := mtxInv3_uninit junk _ hd
  exact ⟨_, _, staWeightedMultLinearReg_eq junk X y w b t u s v q hr hw hdet 0 C h⟩

/-- A design that meets the hypotheses: three points, two predictors. -/
example : 1e-6 ≤ |((design (!![0, 0; 1, 0; 0, 1] : Matrix (Fin 3) (Fin 2) ℝ)).transpose * design !![0, 0; 1, 0; 0, 1]).det| ∧
    1e-6 ≤ |((design (!![0, 0; 1, 0; 0, 1] : Matrix (Fin 3) (Fin 2) ℝ)).transpose * Matrix.diagonal (fun i => 1 / ![1, 2, 4] i) *
      design !![0, 0; 1, 0; 0, 1]).det| ∧ NonConst (![1, 2, 4] : Fin 3 → ℝ) := by
  have hd : (design (!![0, 0; 1, 0; 0, 1] : Matrix (Fin 3) (Fin 2) ℝ)).det = 1 := by
    have h : ∀ (i : Fin 3) (j : Fin 2), design (!![0, 0; 1, 0; 0, 1] : Matrix (Fin 3) (Fin 2) ℝ) i j.succ = !![0, 0; 1, 0; 0, 1] i j :=
      fun i j => rfl
    have h0 : ∀ i : Fin 3, design (!![0, 0; 1, 0; 0, 1] : Matrix (Fin 3) (Fin 2) ℝ) i 0 = 1 := fun i => rfl
    have h1 : ∀ i : Fin 3, design (!![0, 0; 1, 0; 0, 1] : Matrix (Fin 3) (Fin 2) ℝ) i 1 = !![0, 0; 1, 0; 0, 1] i 0 := fun i => h i 0
    have h2 : ∀ i : Fin 3, design (!![0, 0; 1, 0; 0, 1] : Matrix (Fin 3) (Fin 2) ℝ) i 2 = !![0, 0; 1, 0; 0, 1] i 1 := fun i => h i 1
    rw [Matrix.det_fin_three]
    simp only [h0, h1, h2]
    simp
  refine ⟨?_, ?_, ⟨0, 1, by norm_num⟩⟩
  · rw [Matrix.det_mul, Matrix.det_transpose, hd]
    norm_num
  · rw [Matrix.det_mul, Matrix.det_mul, Matrix.det_transpose, hd, Matrix.det_diagonal, Fin.prod_univ_three]
    simp
    norm_num

end Verif
