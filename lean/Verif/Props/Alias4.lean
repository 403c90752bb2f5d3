import Verif.Props.Alias3
import Verif.Props.Matrices4
import Verif.Props.Decomp1
import Verif.Lemmas.Gauss

/-!
# Calls whose arguments share storage: transpose, adjoint, inverse, Cholesky factor, Gram–Schmidt
-/

namespace Verif

open Out

variable {R : Type} [CReal R] {n : ℕ}

/-! ### Transpose -/

/-- C145, C19. `zsl_mtx_trans(m, m)` on a square matrix does not transpose: it mirrors the upper triangle to the lower one. -/
theorem mtx_trans_in_place (junk : ℕ → R) (mem : MMem R) (m : ℕ) (A : Matrix (Fin n) (Fin n) R) (t : List R) (hn : 0 < n)
    (hm : mem m = mtxOf A t) :
    mtxTransMem junk mem m m = ok (0, Function.update mem m (mtxOf (Matrix.of fun i j => A (min i j) (max i j)) t)) := by
  unfold mtxTransMem
  rw [hm, if_neg (by simp), if_neg (by simp; omega), mtxOf_rows, mtxOf_cols]
  have h := forN_sat (n := n)
    (f := fun i (s : List R × MMem R) => do
      let (_, d) ← mtxGetRow (s.2 m) i s.1
      let (_, mem) ← onObj s.2 m (fun x => mtxSetCol x i d)
      return (d, mem))
    (s := (junkArr junk n, mem))
    (fun i s => s.1.length = n ∧
      s.2 = Function.update mem m (mkM n n (fun a b => if b < i then ext A (min a b) (max a b) else ext A a b) t))
    ⟨by simp [junkArr], by
      rw [show mkM n n (fun a b => if b < 0 then ext A (min a b) (max a b) else ext A a b) t = mem m by
        rw [hm, mtxOf_eq]
        exact mkM_congr (by simp), Function.update_eq_self]⟩ (by
      rintro i hi ⟨d, mb⟩ ⟨hd, hmb⟩
      dsimp only at hd hmb ⊢
      subst hmb
      simp only [onObj, Function.update_self, Function.update_idem]
      rw [mkM_getRow _ _ _ hi hd.ge]
      simp only [ok_bind]
      rw [mkM_setCol _ _ _ (fun a => if a < i then ext A (min i a) (max i a) else ext A i a) hi]
      · simp only [ok_bind, pure_eq, sat_ok]
        refine ⟨by simp; omega, ?_⟩
        congr 1
        apply mkM_congr
        intro a _ b _
        by_cases h1 : b = i
        · subst h1
          simp only [if_true, Nat.lt_succ_self]
          by_cases h2 : a < b
          · rw [if_pos h2, min_comm, max_comm]
          · rw [if_neg h2, min_eq_right (by omega), max_eq_left (by omega)]
        · simp only [h1, if_false]
          by_cases h2 : b < i
          · rw [if_pos h2, if_pos (by omega)]
          · rw [if_neg h2, if_neg (by omega)]
      · intro a ha
        apply rd_of
        rw [List.getElem?_append_left (by simpa using ha)]
        simp [ha])
  obtain ⟨⟨d, mb⟩, h1, _, h2⟩ := h
  rw [h1]
  simp only [ok_bind, pure_eq]
  dsimp only at h2
  rw [h2, mtxOf_eq]
  congr 3
  apply mkM_congr
  intro a ha b hb
  rw [if_pos hb, ext_lt _ (by omega) (by omega), ext_lt _ ha hb, Matrix.of_apply]
  congr 1

/-- C145, C19. In place the result is the transpose exactly for the symmetric matrices. -/
theorem mtx_trans_in_place_iff (junk : ℕ → R) (mem : MMem R) (m : ℕ) (A : Matrix (Fin n) (Fin n) R) (t : List R) (hn : 0 < n)
    (hm : mem m = mtxOf A t) :
    mtxTransMem junk mem m m = ok (0, Function.update mem m (mtxOf A.transpose t)) ↔ A.transpose = A := by
  rw [mtx_trans_in_place junk mem m A t hn hm]
  constructor
  · intro h
    have h1 : mtxOf (Matrix.of fun i j => A (min i j) (max i j)) t = mtxOf A.transpose t := by
      have h2 := congrFun (Prod.ext_iff.1 (Out.ok.inj h)).2 m
      simpa using h2
    have h3 := (mtxOf_inj h1).1
    ext i j
    have h4 := congrFun (congrFun h3 i) j
    have h5 := congrFun (congrFun h3 j) i
    simp only [Matrix.of_apply, Matrix.transpose_apply] at h4 h5 ⊢
    rw [← h4, ← h5, min_comm, max_comm]
  · intro h
    rw [h]
    congr 3
    congr 1
    ext i j
    rw [Matrix.of_apply]
    rcases le_total i j with hij | hij
    · rw [min_eq_left hij, max_eq_right hij]
    · rw [min_eq_right hij, max_eq_left hij]
      exact congrFun (congrFun h i) j

example (junk : ℕ → XR) : mtxTransMem junk (fun _ => mat !![1, 2; 3, 4] []) 0 0 =
    ok (0, Function.update (fun _ => mat !![1, 2; 3, 4] []) 0 (mat !![1, 2; 2, 4] [])) := by
  rw [mtx_trans_in_place junk _ 0 ((!![1, 2; 3, 4] : Matrix (Fin 2) (Fin 2) ℝ).map XR.fin) [] (by norm_num) rfl]
  congr 4
  ext i j
  fin_cases i <;> fin_cases j <;> rfl

/-! ### Adjoint and inverse -/

/-- One assignment, when the output is a different object. -/
theorem minorMem_of_ne (mem : MMem R) {m ma : ℕ} (h : m ≠ ma) (d : List R) (k a b c e : ℕ) (x y z w : R)
    (ha : rd (mem m).data a = ok x) (hb : rd (mem m).data b = ok y) (hc : rd (mem m).data c = ok z) (he : rd (mem m).data e = ok w) :
    minorMem (mem.setData ma d) m ma k a b c e = (wr d k (x * y - z * w) >>= fun d' => ok (mem.setData ma d')) := by
  unfold minorMem
  rw [MMem.setData_ne _ _ h, ha, hb, hc, he]
  simp only [ok_bind, MMem.setData_at, MMem.setData_setData, pure_eq]

/-- C145, C23. `zsl_mtx_adjoint_3x3` with an output that is not the input: the call of the model of values. -/
theorem mtx_adjoint_3x3_separate (mem : MMem R) (m ma : ℕ) (h : m ≠ ma) (hm : (mem m).WF) :
    mtxAdjoint3x3Mem mem m ma = (mtxAdjoint3x3 (mem m) (mem ma) >>= fun r => ok (r.1, Function.update mem ma r.2)) := by
  unfold mtxAdjoint3x3Mem mtxAdjoint3x3
  by_cases h1 : (mem m).rows ≠ (mem m).cols ∨ (mem ma).rows ≠ (mem ma).cols
  · rw [if_pos h1, if_pos h1]
    simp
  rw [if_neg h1, if_neg h1]
  by_cases h2 : (mem m).rows ≠ 3 ∨ (mem ma).rows ≠ 3
  · rw [if_pos h2, if_pos h2]
    simp
  rw [if_neg h2, if_neg h2]
  push Not at h1 h2
  have hlen : 9 ≤ (mem m).data.length := by
    unfold Mtx.WF at hm
    rw [← h1.1, h2.1] at hm
    exact hm
  have hr : ∀ i, i < 9 → ∃ x, rd (mem m).data i = ok x := fun i hi => ⟨_, rd_lt (by omega)⟩
  obtain ⟨x0, e0⟩ := hr 0 (by omega)
  obtain ⟨x1, e1⟩ := hr 1 (by omega)
  obtain ⟨x2, e2⟩ := hr 2 (by omega)
  obtain ⟨x3, e3⟩ := hr 3 (by omega)
  obtain ⟨x4, e4⟩ := hr 4 (by omega)
  obtain ⟨x5, e5⟩ := hr 5 (by omega)
  obtain ⟨x6, e6⟩ := hr 6 (by omega)
  obtain ⟨x7, e7⟩ := hr 7 (by omega)
  obtain ⟨x8, e8⟩ := hr 8 (by omega)
  rw [e0, e1, e2, e3, e4, e5, e6, e7, e8]
  simp only [ok_bind]
  conv_lhs => rw [← MMem.setData_self mem ma]
  rw [minorMem_of_ne mem h _ 0 4 8 7 5 x4 x8 x7 x5 e4 e8 e7 e5]
  simp only [minorMem_of_ne mem h _ 1 7 2 1 8 x7 x2 x1 x8 e7 e2 e1 e8, minorMem_of_ne mem h _ 2 1 5 4 2 x1 x5 x4 x2 e1 e5 e4 e2,
    minorMem_of_ne mem h _ 3 6 5 3 8 x6 x5 x3 x8 e6 e5 e3 e8, minorMem_of_ne mem h _ 4 0 8 6 2 x0 x8 x6 x2 e0 e8 e6 e2,
    minorMem_of_ne mem h _ 5 3 2 0 5 x3 x2 x0 x5 e3 e2 e0 e5, minorMem_of_ne mem h _ 6 3 7 6 4 x3 x7 x6 x4 e3 e7 e6 e4,
    minorMem_of_ne mem h _ 7 6 1 0 7 x6 x1 x0 x7 e6 e1 e0 e7, minorMem_of_ne mem h _ 8 0 4 3 1 x0 x4 x3 x1 e0 e4 e3 e1,
    bind_assoc', ok_bind, pure_eq]
  rfl

theorem diagonal_three (a b c : ℝ) : Matrix.diagonal ![a, b, c] = !![a, 0, 0; 0, b, 0; 0, 0, c] := by
  ext i j
  fin_cases i <;> fin_cases j <;> rfl

/-- C145, C23. `zsl_mtx_adjoint_3x3(m, m)` on a diagonal matrix: only the first element is the one of the adjoint
`diag(b c, a c, a b)`. -/
theorem mtx_adjoint_3x3_in_place (mem : MMem XR) (m : ℕ) (a b c : ℝ) (t : List XR) (hm : mem m = mat (Matrix.diagonal ![a, b, c]) t) :
    mtxAdjoint3x3Mem mem m m =
      ok (0, Function.update mem m (mat (Matrix.diagonal ![b * c, b * c * c, b * c * (b * c * c)]) t)) := by
  have h0 : ∀ a b c : ℝ, mat (Matrix.diagonal ![a, b, c]) t = ⟨3, 3, [XR.fin a, XR.fin 0, XR.fin 0, XR.fin 0, XR.fin b, XR.fin 0,
      XR.fin 0, XR.fin 0, XR.fin c] ++ t⟩ := by
    intro a b c
    have h1 : ∀ A : Matrix (Fin 3) (Fin 3) ℝ, mat A t = ⟨3, 3, [XR.fin (A 0 0), XR.fin (A 0 1), XR.fin (A 0 2), XR.fin (A 1 0),
      XR.fin (A 1 1), XR.fin (A 1 2), XR.fin (A 2 0), XR.fin (A 2 1), XR.fin (A 2 2)] ++ t⟩ := fun A => rfl
    rw [h1]
    simp [Matrix.diagonal]
  rw [h0] at hm ⊢
  unfold mtxAdjoint3x3Mem
  rw [hm, if_neg (by simp), if_neg (by simp)]
  simp only [minorMem, hm, MMem.setData_at, MMem.setData_setData, rd, wr, List.cons_append, List.nil_append, List.length_cons,
    List.set_cons_zero, List.set_cons_succ, Nat.zero_lt_succ, Nat.succ_lt_succ_iff, if_true, ok_bind, pure_eq,
    List.getElem?_cons_zero, List.getElem?_cons_succ, XR.fin_mul, XR.fin_sub]
  rw [MMem.setData, hm]
  congr 3
  simp

/-- C145, C23. The adjoint of `diag(1, 2, 3)` is `diag(6, 3, 2)`; in place the result is `diag(6, 18, 108)`. -/
theorem mtx_adjoint_3x3_in_place_wrong (mem : MMem XR) (m : ℕ) (t : List XR) (hm : mem m = mat (Matrix.diagonal ![1, 2, 3]) t) :
    mtxAdjoint3x3Mem mem m m = ok (0, Function.update mem m (mat (Matrix.diagonal ![6, 18, 108]) t)) ∧
    (Matrix.diagonal ![1, 2, 3] : Matrix (Fin 3) (Fin 3) ℝ).adjugate = Matrix.diagonal ![6, 3, 2] := by
  constructor
  · rw [mtx_adjoint_3x3_in_place mem m 1 2 3 t hm]
    norm_num
  · rw [diagonal_three, diagonal_three, Matrix.adjugate_fin_three_of]
    norm_num

/-- C145, C24. `zsl_mtx_inv_3x3` with an output that is not the input: the call of the model of values. -/
theorem mtx_inv_3x3_separate (x0 : R) (mem : MMem R) (m mi : ℕ) (h : m ≠ mi) (hm : (mem m).WF) :
    mtxInv3x3Mem x0 mem m mi = (mtxInv3x3 x0 (mem m) (mem mi) >>= fun r => ok (r.1, Function.update mem mi r.2)) := by
  unfold mtxInv3x3Mem mtxInv3x3
  by_cases h1 : (mem m).rows ≠ (mem m).cols ∨ (mem mi).rows ≠ (mem mi).cols
  · rw [if_pos h1, if_pos h1]
    simp
  rw [if_neg h1, if_neg h1]
  by_cases h2 : (mem m).rows ≠ (mem mi).rows
  · rw [if_pos h2, if_pos h2]
    simp
  rw [if_neg h2, if_neg h2]
  by_cases h3 : (mem m).cols ≠ (mem mi).cols
  · rw [if_pos h3, if_pos h3]
    simp
  rw [if_neg h3, if_neg h3]
  by_cases h4 : (mem m).cols ≠ 3 ∨ (mem mi).cols ≠ 3
  · rw [if_pos h4, if_pos h4]
    simp
  rw [if_neg h4, if_neg h4, bind_assoc']
  congr 1
  funext ⟨rc, d⟩
  dsimp only
  by_cases h5 : rc ≠ 0
  · rw [if_pos h5, if_pos h5]
    simp
  rw [if_neg h5, if_neg h5, mtx_adjoint_3x3_separate mem m mi h hm, bind_assoc', bind_assoc']
  congr 1
  funext ⟨rc, a⟩
  simp only [ok_bind]
  by_cases h6 : rc ≠ 0
  · rw [if_pos h6, if_pos h6]
    rfl
  rw [if_neg h6, if_neg h6]
  by_cases h7 : CReal.ne d (lit 0) = true
  · rw [if_pos h7, if_pos h7]
    simp only [onObj, Function.update_self, Function.update_idem, bind_assoc', ok_bind, pure_eq]
  · rw [if_neg h7, if_neg h7]
    simp only [onObj, Function.update_self, Function.update_idem, bind_assoc', ok_bind, pure_eq]
    congr 1
    funext ⟨rc, a⟩
    dsimp only
    by_cases h8 : rc ≠ 0
    · rw [if_pos h8, if_pos h8]
      rfl
    · rw [if_neg h8, if_neg h8]
      rfl

/-- C145, C24. `zsl_mtx_inv_3x3(m, m)` on `diag(1, 2, 3)`, whose inverse is `diag(1, 1/2, 1/3)`, returns 0 and stores
`diag(1, 3, 18)`. -/
theorem mtx_inv_3x3_in_place_wrong (x0 : XR) (mem : MMem XR) (m : ℕ) (t : List XR) (hm : mem m = mat (Matrix.diagonal ![1, 2, 3]) t) :
    mtxInv3x3Mem x0 mem m m = ok (0, Function.update mem m (mat (Matrix.diagonal ![1, 3, 18]) t)) := by
  unfold mtxInv3x3Mem
  rw [hm, if_neg (by simp), if_neg (by simp), if_neg (by simp), if_neg (by simp), mtx_deter_3x3_correct]
  simp only [ok_bind]
  rw [if_neg (by simp), (mtx_adjoint_3x3_in_place_wrong mem m t hm).1]
  simp only [ok_bind]
  have hd : (Matrix.diagonal ![1, 2, 3] : Matrix (Fin 3) (Fin 3) ℝ).det = 6 := by
    rw [diagonal_three, Matrix.det_fin_three]
    simp
    norm_num
  rw [if_neg (by simp), hd, if_pos (by simp)]
  simp only [onObj, Function.update_self, Function.update_idem]
  rw [XR.lit_eq, XR.fin_div (by norm_num), mtx_scalar_mult_correct]
  simp only [ok_bind, pure_eq]
  rw [diagonal_three, diagonal_three, Matrix.smul_of]
  norm_num

/-- C145, C26. `zsl_mtx_inv` with an output that is not the input: the call of the model of values. -/
theorem mtx_inv_separate (junk : ℕ → R) (mem : MMem R) (m mi : ℕ) (h : m ≠ mi) (hm : (mem m).WF) :
    mtxInvMem junk mem m mi = (mtxInv junk (mem m) (mem mi) >>= fun r => ok (r.1, Function.update mem mi r.2)) := by
  unfold mtxInvMem mtxInv
  by_cases h0 : (mem m).rows = 3
  · rw [if_pos h0, if_pos h0, mtx_inv_3x3_separate _ mem m mi h hm]
  rw [if_neg h0, if_neg h0]
  by_cases h1 : (mem m).rows ≠ (mem m).cols ∨ (mem mi).rows ≠ (mem mi).cols
  · rw [if_pos h1, if_pos h1]
    simp
  rw [if_neg h1, if_neg h1]
  by_cases h2 : (mem m).rows ≠ (mem mi).rows
  · rw [if_pos h2, if_pos h2]
    simp
  rw [if_neg h2, if_neg h2]
  by_cases h3 : (mem m).cols ≠ (mem mi).cols
  · rw [if_pos h3, if_pos h3]
    simp
  rw [if_neg h3, if_neg h3]
  by_cases h4 : (mem mi).rows = 0
  · rw [if_pos h4, if_pos h4]
    rfl
  rw [if_neg h4, if_neg h4, bind_assoc']
  congr 1
  funext ⟨rc, tmp⟩
  dsimp only
  by_cases h5 : rc ≠ 0
  · rw [if_pos h5, if_pos h5]
    simp
  rw [if_neg h5, if_neg h5]
  simp only [onObj, bind_assoc', ok_bind, pure_eq]
  congr 1
  funext ⟨rc, a⟩
  dsimp only
  by_cases h6 : rc ≠ 0
  · rw [if_pos h6, if_pos h6]
    rfl
  rw [if_neg h6, if_neg h6, Function.update_of_ne h, Function.update_self, bind_assoc']
  congr 1
  funext ⟨rc, d⟩
  dsimp only
  by_cases h7 : CReal.eq d (lit 0) = true
  · rw [if_pos h7, if_pos h7]
    rfl
  · rw [if_neg h7, if_neg h7]
    simp only [Function.update_idem, bind_assoc', ok_bind]

/-- Gauss-Jordan elimination of the identity changes nothing. -/
theorem mtxGaussReduc_one (junk : ℕ → XR) (C : Matrix (Fin n) (Fin n) ℝ) (t u w : List XR) (hn : 0 < n) :
    mtxGaussReduc junk (mat (1 : Matrix (Fin n) (Fin n) ℝ) t) (mat (1 : Matrix (Fin n) (Fin n) ℝ) u) (mat C w) =
      ok (0, mat (1 : Matrix (Fin n) (Fin n) ℝ) u, mat (1 : Matrix (Fin n) (Fin n) ℝ) w) := by
  obtain ⟨M, N, ⟨rfl, rfl⟩, h⟩ := mtxGaussReduc_spec junk (1 : Matrix (Fin n) (Fin n) ℝ) 1 C t u w hn (fun _ M N => M = 1 ∧ N = 1) ⟨rfl, rfl⟩ (by
    rintro k M N Q ⟨rfl, rfl⟩ hQ
    have hQ1 : Q = 1 := by
      rcases hQ with ⟨_, h⟩ | ⟨_, h, _⟩ | ⟨h1, _⟩
      · exact h
      · exact h
      · rw [Matrix.one_apply_eq, abs_one] at h1
        norm_num at h1
    have hs : stepMat (1 : Matrix (Fin n) (Fin n) ℝ) k = 1 := by
      rw [stepMat, Matrix.one_apply_eq, if_neg (by norm_num)]
      ext a b
      rw [normMat_mul]
      have he : elimMat (1 : Matrix (Fin n) (Fin n) ℝ) k k = 1 := by
        have h0 : mulOf (1 : Matrix (Fin n) (Fin n) ℝ) k k = 0 := by
          funext q
          unfold mulOf
          rw [if_neg]
          · rfl
          rintro ⟨hq, h2⟩
          rw [Matrix.one_apply_ne hq] at h2
          norm_num at h2
        rw [elimMat, h0, Matrix.zero_vecMulVec, sub_zero]
      rw [he]
      by_cases hak : a = k
      · rw [if_pos hak, hak, div_one]
      · rw [if_neg hak]
    rw [hQ1, one_mul, hs, one_mul]
    exact ⟨rfl, rfl⟩)
  exact h

/-- C145, C26. `zsl_mtx_inv(m, m)` for a matrix that is not 3x3 returns 0 and stores the identity, whatever the matrix was. -/
theorem mtx_inv_in_place (junk : ℕ → XR) (mem : MMem XR) (m : ℕ) (A : Matrix (Fin (n + 1)) (Fin (n + 1)) ℝ) (t : List XR)
    (hm : mem m = mat A t) (h3 : n + 1 ≠ 3) :
    mtxInvMem junk mem m m = ok (0, Function.update mem m (mat (1 : Matrix (Fin (n + 1)) (Fin (n + 1)) ℝ) t)) := by
  unfold mtxInvMem
  rw [hm, if_neg (by simpa using h3), if_neg (by simp), if_neg (by simp), if_neg (by simp), if_neg (by simp), mat_rows, mat_cols]
  obtain ⟨J, hJ⟩ := uninit_eq junk (n + 1) (n + 1)
  rw [hJ, show mtxCopy (mtxOf J []) (mat A t) = ok (0, mat A []) from mtx_copy_correct _ _ _ _]
  simp only [ok_bind]
  rw [if_neg (by simp)]
  simp only [onObj, hm, mtx_init_identity_real, ok_bind, pure_eq]
  rw [if_neg (by simp), Function.update_self, mtx_deter_correct]
  simp only [ok_bind]
  rw [if_neg (by simp), mtxGaussReduc_one junk A t t [] (by omega)]
  simp only [ok_bind, Function.update_idem]

example (junk : ℕ → XR) : mtxInvMem junk (fun _ => mat !![2, 0; 0, 4] []) 0 0 =
    ok (0, Function.update (fun _ => mat !![2, 0; 0, 4] []) 0 (mat (1 : Matrix (Fin 2) (Fin 2) ℝ) [])) :=
  mtx_inv_in_place (n := 1) junk _ 0 _ [] rfl (by norm_num)

/-! ### Cholesky -/

/-- C145, C27. `zsl_mtx_cholesky` with an output that is not the input: the call of the model of values. -/
theorem mtx_cholesky_separate (x0 : R) (mem : MMem R) (m l : ℕ) (h : m ≠ l) :
    mtxCholeskyMem x0 mem m l = (mtxCholesky x0 (mem m) (mem l) >>= fun r => ok (r.1, Function.update mem l r.2)) := by
  unfold mtxCholeskyMem mtxCholesky
  by_cases h1 : (mem m).rows ≠ (mem m).cols
  · rw [if_pos h1, if_pos h1]
    simp
  rw [if_neg h1, if_neg h1, bind_assoc']
  congr 1
  funext asym
  by_cases h2 : asym = true
  · rw [if_pos h2, if_pos h2]
    simp
  rw [if_neg h2, if_neg h2]
  by_cases h3 : (mem m).rows ≠ (mem l).rows
  · rw [if_pos h3, if_pos h3]
    simp
  rw [if_neg h3, if_neg h3]
  by_cases h4 : (mem m).cols ≠ (mem l).cols
  · rw [if_pos h4, if_pos h4]
    simp
  rw [if_neg h4, if_neg h4]
  simp only [onObj, bind_assoc', ok_bind, pure_eq]
  congr 1
  funext ⟨rc, a⟩
  dsimp only
  have hsim := (forN_sim (n := (mem m).cols) (f := fun j (s : R × R × Mtx R) => do
        let (x, y, l) := s
        let (sum, x) ← forN j (fun k (s : R × R) => do
          let (_, x) ← mtxGet l j k s.2
          return (s.1 + x * x, x)) (lit 0, x)
        let (_, x) ← mtxGet (mem m) j j x
        let (_, l) ← mtxSet l j j (CReal.sqrt (x - sum))
        forN ((mem m).cols - (j + 1)) (fun i' (s : R × R × Mtx R) => do
          let i := j + 1 + i'
          let (x, y, l) := s
          let (sum, x, y) ← forN j (fun k (s : R × R × R) => do
            let (_, x) ← mtxGet l j k s.2.1
            let (_, y) ← mtxGet l i k s.2.2
            return (s.1 + y * x, x, y)) (lit 0, x, y)
          let (_, x) ← mtxGet l j j x
          let (_, y) ← mtxGet (mem m) i j y
          let (_, l) ← mtxSet l i j ((y - sum) / x)
          return (x, y, l)) (x, y, l))
    (g := fun j (s : R × R × MMem R) => do
        let (x, y, mm) := s
        let (sum, x) ← forN j (fun k (s : R × R) => do
          let (_, x) ← mtxGet (mm l) j k s.2
          return (s.1 + x * x, x)) (lit 0, x)
        let (_, x) ← mtxGet (mm m) j j x
        let (_, mm) ← onObj mm l (fun a => mtxSet a j j (CReal.sqrt (x - sum)))
        forN ((mem m).cols - (j + 1)) (fun i' (s : R × R × MMem R) => do
          let i := j + 1 + i'
          let (x, y, mm) := s
          let (sum, x, y) ← forN j (fun k (s : R × R × R) => do
            let (_, x) ← mtxGet (mm l) j k s.2.1
            let (_, y) ← mtxGet (mm l) i k s.2.2
            return (s.1 + y * x, x, y)) (lit 0, x, y)
          let (_, x) ← mtxGet (mm l) j j x
          let (_, y) ← mtxGet (mm m) i j y
          let (_, mm) ← onObj mm l (fun a => mtxSet a i j ((y - sum) / x))
          return (x, y, mm)) (x, y, mm))
    (fun s => (s.1, s.2.1, Function.update mem l s.2.2)) (fun _ _ => True) (t := (x0, x0, a)) trivial ?_).1
  · simp only [onObj, bind_assoc', ok_bind, pure_eq] at hsim
    rw [hsim, bind_assoc']
    congr 1
  · rintro j _ ⟨x, y, a⟩ -
    refine ⟨?_, fun _ _ => trivial⟩
    simp only [onObj, Function.update_self, Function.update_of_ne h, Function.update_idem, bind_assoc', ok_bind, pure_eq]
    congr 1
    funext ⟨sum, x⟩
    dsimp only
    congr 1
    funext ⟨_, x⟩
    dsimp only
    congr 1
    funext ⟨_, a⟩
    dsimp only
    refine (forN_sim (fun s : R × R × Mtx R => (s.1, s.2.1, Function.update mem l s.2.2)) (fun _ _ => True) (t := (x, y, a)) trivial ?_).1
    rintro i _ ⟨x, y, a⟩ -
    refine ⟨?_, fun _ _ => trivial⟩
    simp only [Function.update_self, Function.update_of_ne h, Function.update_idem, bind_assoc', ok_bind]

/-- C145, C27. `zsl_mtx_cholesky(m, m)` clears its input before it reads it: the result is the same for all symmetric matrices of one
size. -/
theorem mtx_cholesky_in_place (x0 : XR) (mem : MMem XR) (m : ℕ) (A B : Matrix (Fin n) (Fin n) ℝ) (t : List XR)
    (hA : A.transpose = A) (hB : B.transpose = B) :
    mtxCholeskyMem x0 (Function.update mem m (mat A t)) m m = mtxCholeskyMem x0 (Function.update mem m (mat B t)) m m := by
  have key : ∀ A : Matrix (Fin n) (Fin n) ℝ, A.transpose = A → choleskyAsym x0 (mat A t) = ok false := by
    intro A hA
    obtain ⟨b, hb, h⟩ := choleskyAsym_eq x0 A t
    cases b with
    | false => exact hb
    | true => exact absurd hA (h.1 rfl)
  unfold mtxCholeskyMem
  simp only [Function.update_self, mat_rows, mat_cols, ne_eq, not_true_eq_false, if_false, key A hA, key B hB, ok_bind, onObj,
    Function.update_idem, Bool.false_eq_true]
  rw [show mtxInit (mat A t) (some entryFnEmpty) = _ from (mtx_init_empty _ t).1,
    show mtxInit (mat B t) (some entryFnEmpty) = _ from (mtx_init_empty _ t).1]

/-- C145, C27. In place the factor of the 1x1 matrix `(a)` is stored as zero, with return code 0. -/
theorem mtx_cholesky_in_place_wrong (x0 : XR) (mem : MMem XR) (m : ℕ) (a : ℝ) (t : List XR) (hm : mem m = mat !![a] t) :
    mtxCholeskyMem x0 mem m m = ok (0, Function.update mem m (mat !![0] t)) := by
  have key : choleskyAsym x0 (mat !![a] t) = ok false := by
    obtain ⟨b, hb, h⟩ := choleskyAsym_eq x0 !![a] t
    cases b with
    | false => exact hb
    | true =>
      refine absurd ?_ (h.1 rfl)
      ext i j
      fin_cases i
      fin_cases j
      rfl
  unfold mtxCholeskyMem
  rw [hm, if_neg (by simp), key]
  simp only [ok_bind, mat_rows, mat_cols, onObj, hm]
  rw [show mtxInit (mat !![a] t) (some entryFnEmpty) = _ from (mtx_init_empty _ t).1]
  have h1 : mtxOf (Matrix.of fun (_ : Fin 1) (_ : Fin 1) => (lit 0 : XR)) t = ⟨1, 1, XR.fin 0 :: t⟩ := by
    rw [XR.lit_eq, Rat.cast_zero]
    rfl
  have h2 : mat !![(0 : ℝ)] t = ⟨1, 1, XR.fin 0 :: t⟩ := rfl
  rw [h1, h2]
  simp [forN, mtxGet, mtxSet, rd, wr, XR.fin_sub, XR.lit_eq, Function.update_idem, XR.fin_sqrt]

/-! ### Gram-Schmidt and the norms of the columns -/

/-- `x` has the shape of `x0` and the same columns from `t` on. -/
def SameCols (x0 : Mtx R) (t : ℕ) (x : Mtx R) : Prop :=
  x.rows = x0.rows ∧ x.cols = x0.cols ∧ ∀ a b, t ≤ b → b < x0.cols → x.data[a * x0.cols + b]? = x0.data[a * x0.cols + b]?

omit [CReal R] in
theorem SameCols.mono {x0 x : Mtx R} {t : ℕ} (h : SameCols x0 t x) : SameCols x0 (t + 1) x :=
  ⟨h.1, h.2.1, fun a b hb => h.2.2 a b (by omega)⟩

omit [CReal R] in
theorem SameCols.get {x0 x : Mtx R} {t : ℕ} (h : SameCols x0 t x) (i : ℕ) (y : R) : mtxGet x i t y = mtxGet x0 i t y := by
  unfold mtxGet
  rw [h.1, h.2.1]
  by_cases h1 : i ≥ x0.rows ∨ t ≥ x0.cols
  · rw [if_pos h1, if_pos h1]
  · rw [if_neg h1, if_neg h1]
    unfold rd
    rw [h.2.2 i t le_rfl (by omega)]

theorem SameCols.getCol {x0 x : Mtx R} {t : ℕ} (h : SameCols x0 t x) (v : List R) : mtxGetCol x t v = mtxGetCol x0 t v := by
  unfold mtxGetCol
  simp only [h.get, h.1]

omit [CReal R] in
theorem SameCols.set {x0 x x' : Mtx R} {t i : ℕ} {y : R} {rc : Int} (h : SameCols x0 (t + 1) x)
    (hs : mtxSet x i t y = ok (rc, x')) : SameCols x0 (t + 1) x' := by
  unfold mtxSet at hs
  by_cases h1 : i ≥ x.rows ∨ t ≥ x.cols
  · rw [if_pos h1] at hs
    cases hs
    exact h
  · rw [if_neg h1] at hs
    unfold wr at hs
    by_cases h2 : i * x.cols + t < x.data.length
    · rw [if_pos h2] at hs
      cases hs
      refine ⟨h.1, h.2.1, fun a b hb hc => ?_⟩
      show (x.data.set _ _)[_]? = _
      rw [List.getElem?_set_ne]
      · exact h.2.2 a b hb hc
      · rw [h.2.1]
        intro he
        have := congrArg (· % x0.cols) he
        simp only [Nat.mul_add_mod_self_right] at this
        rw [Nat.mod_eq_of_lt hc, Nat.mod_eq_of_lt (by rw [h.2.1] at h1; omega)] at this
        omega
    · rw [if_neg h2] at hs
      cases hs

omit [CReal R] in
theorem SameCols.setCol {x0 x x' : Mtx R} {t : ℕ} {v : List R} {rc : Int} (h : SameCols x0 t x)
    (hs : mtxSetCol x t v = ok (rc, x')) : SameCols x0 (t + 1) x' := by
  unfold mtxSetCol at hs
  have key : ∀ k c, forRet k (fun i (m : Mtx R) => do
      let x ← rd v i
      let (rc, m) ← mtxSet m i t x
      if rc ≠ 0 then return Ctl.ret (rc, m) else return Ctl.next m) x = ok c →
      match c with
      | .ret r => SameCols x0 (t + 1) r.2
      | .next m => SameCols x0 (t + 1) m := by
    intro k
    induction k with
    | zero =>
      intro c hc
      cases hc
      exact h.mono
    | succ k ih =>
      intro c hc
      rw [forRet] at hc
      cases hf : forRet k (fun i (m : Mtx R) => do
        let x ← rd v i
        let (rc, m) ← mtxSet m i t x
        if rc ≠ 0 then return Ctl.ret (rc, m) else return Ctl.next m) x with
      | ub =>
        rw [hf] at hc
        cases hc
      | ok c' =>
        rw [hf] at hc
        have h1 := ih c' hf
        cases c' with
        | ret r =>
          cases hc
          exact h1
        | next m =>
          simp only [ok_bind] at hc h1
          cases hr : rd v k with
          | ub => simp [hr] at hc
          | ok y =>
            cases hm : mtxSet m k t y with
            | ub => simp [hr, hm] at hc
            | ok q =>
              obtain ⟨rc, m'⟩ := q
              have h2 := h1.set hm
              simp only [hr, hm, ok_bind, pure_eq] at hc
              by_cases h3 : rc ≠ 0
              · rw [if_pos h3] at hc
                cases hc
                exact h2
              · rw [if_neg h3] at hc
                cases hc
                exact h2
  cases hf : forRet x.rows (fun i (m : Mtx R) => do
        let x ← rd v i
        let (rc, m) ← mtxSet m i t x
        if rc ≠ 0 then return Ctl.ret (rc, m) else return Ctl.next m) x with
  | ub =>
    rw [hf] at hs
    cases hs
  | ok c =>
    rw [hf] at hs
    have h1 := key _ c hf
    cases c with
    | ret r =>
      cases hs
      exact h1
    | next m =>
      cases hs
      exact h1

/-- The column read in step `t` is the one the matrix had at the call, whether or not the output is the input. -/
theorem getCol_update (mem : MMem R) (m mort t : ℕ) (x : Mtx R) (h : SameCols (mem mort) t x) (v : List R) :
    mtxGetCol (Function.update mem mort x m) t v = mtxGetCol (mem m) t v := by
  by_cases hm : m = mort
  · subst hm
    rw [Function.update_self, h.getCol]
  · rw [Function.update_of_ne hm]

/-- C145. `zsl_mtx_cols_norm` gives the same for all pointers: each column is read before it is written. -/
theorem mtx_cols_norm_aliasing (junk : ℕ → R) (mem : MMem R) (m mnorm : ℕ) :
    mtxColsNormMem junk mem m mnorm = (mtxColsNorm junk (mem m) (mem mnorm) >>= fun r => ok (r.1, Function.update mem mnorm r.2)) := by
  unfold mtxColsNormMem mtxColsNorm
  by_cases h1 : (mem m).rows = 0
  · rw [if_pos h1, if_pos h1]
    rfl
  rw [if_neg h1, if_neg h1]
  have hsim := (forN_sim (n := (mem m).cols) (f := fun g (s : Vec R × Mtx R) => do
      let (v, mnorm) := s
      let (_, vd) ← mtxGetCol (mem m) g v.data
      let (_, v) ← vecToUnit { v with data := vd }
      let (_, mnorm) ← mtxSetCol mnorm g v.data
      return (v, mnorm)) (g := fun g (s : Vec R × MMem R) => do
      let (v, mem) := s
      let (_, vd) ← mtxGetCol (mem m) g v.data
      let (_, v) ← vecToUnit { v with data := vd }
      let (_, mem) ← onObj mem mnorm (fun x => mtxSetCol x g v.data)
      return (v, mem)) (fun s => (s.1, Function.update mem mnorm s.2)) (fun g s => SameCols (mem mnorm) g s.2)
      (t := (Vec.uninit junk (mem m).rows, mem mnorm)) ⟨rfl, rfl, fun _ _ _ _ => rfl⟩ ?_).1
  · rw [Function.update_eq_self] at hsim
    rw [hsim]
    simp only [bind_assoc', ok_bind, pure_eq]
  · rintro g _ ⟨v, x⟩ hx
    dsimp only at hx
    constructor
    · simp only [getCol_update mem m mnorm g x hx, onObj, Function.update_self, Function.update_idem, bind_assoc', ok_bind, pure_eq]
    · intro s' h
      dsimp only at h
      cases e1 : mtxGetCol (mem m) g v.data with
      | ub => simp [e1] at h
      | ok p =>
        simp only [e1, ok_bind] at h
        cases e2 : vecToUnit { v with data := p.2 } with
        | ub => simp [e2] at h
        | ok w =>
          simp only [e2, ok_bind] at h
          cases e3 : mtxSetCol x g w.2.data with
          | ub => simp [e3] at h
          | ok y =>
            simp only [e3, ok_bind, pure_eq] at h
            cases h
            exact hx.setCol e3

/-- C145, C31. `zsl_mtx_gram_schmidt` gives the same for all pointers. -/
theorem mtx_gram_schmidt_aliasing (junk : ℕ → R) (mem : MMem R) (m mort : ℕ) :
    mtxGramSchmidtMem junk mem m mort =
      (mtxGramSchmidt junk (mem m) (mem mort) >>= fun r => ok (r.1, Function.update mem mort r.2)) := by
  unfold mtxGramSchmidtMem mtxGramSchmidt
  by_cases h1 : (mem m).rows = 0
  · simp only [if_pos h1]
    rfl
  simp only [if_neg h1]
  have hsim := (forN_sim (n := (mem m).cols) (f := fun t (s : Vec R × Vec R × Vec R × Mtx R) => do
      let (v, w, q, mort) := s
      let (_, q) ← vecInit q
      let (_, vd) ← mtxGetCol (mem m) t v.data
      let v : Vec R := { v with data := vd }
      let (w, q) ← forN t (fun g (s : Vec R × Vec R) => do
        let (w, q) := s
        let (_, wd) ← mtxGetCol mort g w.data
        let (_, w) ← vecProjectOnto { w with data := wd } v
        let (_, q) ← vecAdd q w q
        return (w, q)) (w, q)
      let (_, v) ← vecSub v q v
      let (_, mort) ← mtxSetCol mort t v.data
      return (v, w, q, mort)) (g := fun t (s : Vec R × Vec R × Vec R × MMem R) => do
      let (v, w, q, mem) := s
      let (_, q) ← vecInit q
      let (_, vd) ← mtxGetCol (mem m) t v.data
      let v : Vec R := { v with data := vd }
      let (w, q) ← forN t (fun g (s : Vec R × Vec R) => do
        let (w, q) := s
        let (_, wd) ← mtxGetCol (mem mort) g w.data
        let (_, w) ← vecProjectOnto { w with data := wd } v
        let (_, q) ← vecAdd q w q
        return (w, q)) (w, q)
      let (_, v) ← vecSub v q v
      let (_, mem) ← onObj mem mort (fun x => mtxSetCol x t v.data)
      return (v, w, q, mem)) (fun s => (s.1, s.2.1, s.2.2.1, Function.update mem mort s.2.2.2))
      (fun t s => SameCols (mem mort) t s.2.2.2)
      (t := (Vec.uninit junk (mem m).rows, Vec.uninit junk (mem m).rows, Vec.uninit junk (mem m).rows, mem mort))
      ⟨rfl, rfl, fun _ _ _ _ => rfl⟩ ?_).1
  · rw [Function.update_eq_self] at hsim
    rw [hsim]
    simp only [bind_assoc', ok_bind, pure_eq]
  · rintro g _ ⟨v, w, q, x⟩ hx
    dsimp only at hx
    constructor
    · simp only [getCol_update mem m mort g x hx, onObj, Function.update_self, Function.update_idem, bind_assoc', ok_bind, pure_eq]
    · intro s' h
      dsimp only at h
      cases e0 : vecInit q with
      | ub => simp [e0] at h
      | ok q' =>
        simp only [e0, ok_bind] at h
        cases e1 : mtxGetCol (mem m) g v.data with
        | ub => simp [e1] at h
        | ok p =>
          simp only [e1, ok_bind] at h
          cases e2 : forN g (fun g (s : Vec R × Vec R) => do
              let (w, q) := s
              let (_, wd) ← mtxGetCol x g w.data
              let (_, w) ← vecProjectOnto { w with data := wd } { v with data := p.2 }
              let (_, q) ← vecAdd q w q
              return (w, q)) (w, q'.2) with
          | ub => simp only [e2, ub_bind, reduceCtorEq] at h
          | ok z =>
            simp only [e2, ok_bind] at h
            cases e3 : vecSub { v with data := p.2 } z.2 { v with data := p.2 } with
            | ub => simp [e3] at h
            | ok v' =>
              simp only [e3, ok_bind] at h
              cases e4 : mtxSetCol x g v'.2.data with
              | ub => simp [e4] at h
              | ok y =>
                simp only [e4, ok_bind, pure_eq] at h
                cases h
                exact hx.setCol e4

end Verif
