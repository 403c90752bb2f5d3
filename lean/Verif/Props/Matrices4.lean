import Mathlib.LinearAlgebra.Matrix.Adjugate
import Mathlib.LinearAlgebra.Matrix.NonsingularInverse
import Verif.Props.Matrices3

/-!
# Properties of matrices: determinant, adjoint, 3x3 inverse (C22, C23, C24)
-/

set_option linter.unusedSectionVars false

namespace Verif

open Out

variable {R : Type} [CReal R] {n k : ℕ}

/-! ## C22: the determinant -/

theorem mat_rd {r c : ℕ} (A : Matrix (Fin r) (Fin c) ℝ) (t : List XR) (k : ℕ) (i : Fin r) (j : Fin c)
    (hk : k = i * c + j) : rd (mat A t).data k = ok (XR.fin (A i j)) := by
  unfold mat
  rw [mtxOf_eq, mkM_data, hk, mkD_rd _ _ i.2 j.2, ext_fin]
  rfl

/-- C22. `zsl_mtx_deter_3x3`. -/
theorem mtx_deter_3x3_correct (A : Matrix (Fin 3) (Fin 3) ℝ) (t : List XR) (d : XR) :
    mtxDeter3x3 (mat A t) d = ok (0, XR.fin A.det) := by
  unfold mtxDeter3x3
  rw [if_neg (by simp), if_neg (by simp)]
  rw [mat_rd A t 0 0 0 rfl, mat_rd A t 1 0 1 rfl, mat_rd A t 2 0 2 rfl, mat_rd A t 3 1 0 rfl,
    mat_rd A t 4 1 1 rfl, mat_rd A t 5 1 2 rfl, mat_rd A t 6 2 0 rfl, mat_rd A t 7 2 1 rfl, mat_rd A t 8 2 2 rfl]
  simp only [ok_bind, pure_eq, XR.fin_mul, XR.fin_sub, XR.fin_add]
  congr 3
  rw [Matrix.det_fin_three]
  ring

theorem mtxDeterN_eq (junk : ℕ → XR) (n : ℕ) : ∀ (fuel : ℕ) (A : Matrix (Fin (n + 1)) (Fin (n + 1)) ℝ)
    (t : List XR) (d : XR), n < fuel →
      mtxDeterN fuel junk (mat A t) d = ok (0, XR.fin A.det) := by
  induction n with
  | zero =>
    intro fuel A t d hf
    obtain ⟨fuel, rfl⟩ := Nat.exists_eq_succ_of_ne_zero (by omega : fuel ≠ 0)
    rw [mtxDeterN, if_pos (by rfl), mat_rd A t 0 0 0 rfl, Matrix.det_fin_one]
    rfl
  | succ n ih =>
    intro fuel A t d hf
    obtain ⟨fuel, rfl⟩ := Nat.exists_eq_succ_of_ne_zero (by omega : fuel ≠ 0)
    rw [mtxDeterN]
    rw [if_neg (by simp)]
    by_cases h2 : n + 1 + 1 = 2
    · obtain rfl : n = 0 := by omega
      rw [if_pos (by rfl), mat_rd A t 0 0 0 rfl, mat_rd A t 3 1 1 rfl, mat_rd A t 2 1 0 rfl, mat_rd A t 1 0 1 rfl]
      simp only [ok_bind, pure_eq, XR.fin_mul, XR.fin_sub]
      congr 3
      rw [Matrix.det_fin_two]
      ring
    rw [if_neg (by simpa using h2)]
    by_cases h3 : n + 1 + 1 = 3
    · obtain rfl : n = 1 := by omega
      rw [if_pos (by rfl)]
      exact mtx_deter_3x3_correct A t d
    rw [if_neg (by simpa using h3), if_neg (by simp)]
    have hloop := forRet_sat (n := n + 1 + 1) (ρ := Int × XR)
      (f := fun g (s : XR × XR × XR × Mtx XR) => do
        let (d, dtmp, cur, mr) := s
        let (_, cur) ← mtxGet (mat A t) 0 g cur
        let (_, mr) ← mtxInit mr none
        let (_, mr) ← mtxReduce junk (junk 0) (mat A t) mr 0 g
        let (rc, dtmp) ← mtxDeterN fuel junk mr dtmp
        if rc ≠ 0 then return Ctl.ret (-EINVAL, d)
        else
          let sign : XR := if g % 2 ≠ 0 then lit (-1) else lit 1
          return Ctl.next (d + dtmp * cur * sign, dtmp, cur, mr))
      (s := (lit 0, junk 0, junk 0, ⟨(mat A t).rows - 1, (mat A t).rows - 1,
          List.replicate (((mat A t).rows - 1) * ((mat A t).rows - 1)) (lit 0)⟩))
      (fun g s => s.1 = XR.fin (∑ j : Fin (n + 1 + 1), if j.val < g then
          (-1) ^ (j : ℕ) * A 0 j * (A.submatrix Fin.succ j.succAbove).det else 0) ∧
        ∃ B : Matrix (Fin (n + 1)) (Fin (n + 1)) XR, s.2.2.2 = mtxOf B []) (fun _ => False) (by
          refine ⟨by simp, Matrix.of fun _ _ => lit 0, ?_⟩
          simp [mtxOf, -List.ofFn_succ]) (by
          rintro g hg ⟨d, dtmp, cur, mr⟩ ⟨h1, B, hB⟩
          dsimp only at h1 hB ⊢
          obtain ⟨gg, rfl⟩ : ∃ gg : Fin (n + 1 + 1), gg.val = g := ⟨⟨g, hg⟩, rfl⟩
          have hget := mtx_get_correct (A.map XR.fin) t cur 0 gg
          change mtxGet (mat A t) 0 gg cur = _ at hget
          rw [hget]
          simp only [ok_bind]
          rw [hB, mtx_init_null]
          simp only [ok_bind]
          have hred := mtx_reduce_correct junk (junk 0) (A.map XR.fin)
            (Matrix.of fun (_ : Fin (n + 1)) (_ : Fin (n + 1)) => lit 0) t [] 0 gg (by omega)
          change mtxReduce junk (junk 0) (mat A t) _ 0 gg = ok (0, mat (A.submatrix _ _) []) at hred
          rw [hred]
          simp only [ok_bind]
          rw [ih fuel _ _ _ (by omega)]
          simp only [ok_bind, ne_eq, not_true_eq_false, if_false, pure_eq, sat_ok]
          refine ⟨?_, _, rfl⟩
          rw [h1]
          have hsign : (if ¬gg.val % 2 = 0 then (lit (-1) : XR) else lit 1) = XR.fin ((-1) ^ gg.val) := by
            rcases Nat.even_or_odd gg.val with he | ho
            · rw [if_neg (by rw [Nat.even_iff] at he; omega), he.neg_one_pow]
              simp
            · rw [if_pos (by rw [Nat.odd_iff] at ho; omega), ho.neg_one_pow]
              simp
          rw [hsign]
          simp only [Matrix.map_apply, XR.fin_mul, XR.fin_add, XR.fin_inj]
          have hs : (∑ j : Fin (n + 1 + 1), if j.val < gg.val + 1 then
              (-1) ^ (j : ℕ) * A 0 j * (A.submatrix Fin.succ j.succAbove).det else 0) =
              (∑ j : Fin (n + 1 + 1), if j.val < gg.val then
              (-1) ^ (j : ℕ) * A 0 j * (A.submatrix Fin.succ j.succAbove).det else 0) +
              ∑ j : Fin (n + 1 + 1), if j = gg then
              (-1) ^ (j : ℕ) * A 0 j * (A.submatrix Fin.succ j.succAbove).det else 0 := by
            rw [← Finset.sum_add_distrib]
            apply Finset.sum_congr rfl
            intro x _
            by_cases h2 : x = gg
            · subst h2
              simp
            · have : x.val ≠ gg.val := fun h => h2 (Fin.ext h)
              rw [if_neg h2, add_zero]
              split_ifs <;> first | rfl | (exfalso; omega)
          rw [hs, Finset.sum_ite_eq' Finset.univ, if_pos (Finset.mem_univ _)]
          rw [show (Fin.succAbove 0 : Fin (n + 1) → Fin (n + 1 + 1)) = Fin.succ from
            funext Fin.zero_succAbove]
          ring)
    obtain ⟨c, hc, hP⟩ := hloop
    rw [mat_cols, hc]
    rcases c with ⟨d', rest⟩ | r
    · obtain ⟨h1, _⟩ := hP
      simp only [ok_bind, pure_eq]
      dsimp only at h1
      rw [h1, Matrix.det_succ_row_zero]
      congr 3
      exact Finset.sum_congr rfl fun x _ => if_pos x.2
    · exact absurd hP (by simp)

/-- C22. `zsl_mtx_deter` of a square matrix of any size `n + 1 ≥ 1` is its determinant. -/
theorem mtx_deter_correct (junk : ℕ → XR) (A : Matrix (Fin (n + 1)) (Fin (n + 1)) ℝ) (t : List XR) (d : XR) :
    mtxDeter junk (mat A t) d = ok (0, XR.fin A.det) :=
  mtxDeterN_eq junk n _ A t d (by rw [mat_rows]; omega)

/-- C22. The determinant is multiplicative with respect to `zsl_mtx_mult`. -/
theorem mtx_deter_mult (junk : ℕ → XR) (A B C : Matrix (Fin (n + 1)) (Fin (n + 1)) ℝ) (t u w : List XR)
    (d : XR) :
    (do
      let (_, m) ← mtxMult (mat A t) (mat B u) (mat C w)
      mtxDeter junk m d) =
    (do
      let (_, a) ← mtxDeter junk (mat A t) d
      let (_, b) ← mtxDeter junk (mat B u) d
      return (0, a * b)) := by
  have h := mtx_mult_correct A B (C.map XR.fin) t u w
  change mtxMult _ _ (mat C w) = _ at h
  rw [h, mtx_deter_correct _ _ _ _, mtx_deter_correct _ _ _ _]
  simp only [ok_bind, pure_eq]
  rw [mtx_deter_correct _ _ _ _, Matrix.det_mul]
  rfl

/-- C22. The determinant is invariant under `zsl_mtx_trans`. -/
theorem mtx_deter_trans (junk : ℕ → XR) (A C : Matrix (Fin (n + 1)) (Fin (n + 1)) ℝ) (t w : List XR)
    (d : XR) :
    (do
      let (_, m) ← mtxTrans junk (mat A t) (mat C w)
      mtxDeter junk m d) = mtxDeter junk (mat A t) d := by
  have h := mtx_trans_real junk A (C.map XR.fin) t w (by omega)
  change mtxTrans junk _ (mat C w) = _ at h
  rw [h]
  simp only [ok_bind]
  rw [mtx_deter_correct _ _ _ _, mtx_deter_correct _ _ _ _, Matrix.det_transpose]

/-- C22. Two equal rows make the determinant zero. -/
theorem mtx_deter_equal_rows (junk : ℕ → XR) (A : Matrix (Fin (n + 1)) (Fin (n + 1)) ℝ) (t : List XR)
    (d : XR) (i j : Fin (n + 1)) (hij : i ≠ j) (hrow : A i = A j) :
    mtxDeter junk (mat A t) d = ok (0, XR.fin 0) := by
  rw [mtx_deter_correct _ _ _ _, Matrix.det_zero_of_row_eq hij hrow]

/-- C22. A non-square matrix with three or more rows is refused, and the output is unchanged. -/
theorem mtx_deter_not_square (junk : ℕ → R) (m : Mtx R) (d : R) (h3 : 3 ≤ m.rows) (hne : m.rows ≠ m.cols) :
    mtxDeter junk m d = ok (-EINVAL, d) := by
  unfold mtxDeter
  rw [mtxDeterN, if_neg (by omega), if_neg (by omega)]
  split_ifs with h
  · unfold mtxDeter3x3
    rw [if_pos hne]
  · rfl

/-- Non-vacuity: a 4x4 determinant computed by the recursion. -/
example (junk : ℕ → XR) : mtxDeter junk (mat !![2, 0, 0, 0; 5, 3, 0, 0; 1, 1, 1, 0; 7, 8, 9, 4] []) (lit 0) =
    ok (0, XR.fin 24) := by
  rw [mtx_deter_correct _ _ _ _]
  simp [Matrix.det_succ_row_zero, Fin.sum_univ_succ, Fin.succAbove]
  norm_num

/-! ## C23: the adjoint -/

/-- C23. `zsl_mtx_adjoint_3x3`, and `zsl_mtx_adjoint` for 3x3 matrices, store the adjugate. -/
theorem mtx_adjoint_3x3_correct (junk : ℕ → XR) (A : Matrix (Fin 3) (Fin 3) ℝ) (B : Matrix (Fin 3) (Fin 3) XR)
    (t u : List XR) :
    mtxAdjoint3x3 (mat A t) (mtxOf B u) = ok (0, mat A.adjugate u) ∧
    mtxAdjoint junk (mat A t) (mtxOf B u) = ok (0, mat A.adjugate u) := by
  have h : mtxAdjoint3x3 (mat A t) (mtxOf B u) = ok (0, mat A.adjugate u) := by
    unfold mtxAdjoint3x3
    rw [if_neg (by simp), if_neg (by simp)]
    rw [mat_rd A t 0 0 0 rfl, mat_rd A t 1 0 1 rfl, mat_rd A t 2 0 2 rfl, mat_rd A t 3 1 0 rfl,
      mat_rd A t 4 1 1 rfl, mat_rd A t 5 1 2 rfl, mat_rd A t 6 2 0 rfl, mat_rd A t 7 2 1 rfl, mat_rd A t 8 2 2 rfl]
    simp only [ok_bind, XR.fin_mul, XR.fin_sub]
    have hB : (mtxOf B u).data = [B 0 0, B 0 1, B 0 2, B 1 0, B 1 1, B 1 2, B 2 0, B 2 1, B 2 2] ++ u := rfl
    rw [hB]
    have hA : mat A.adjugate u = ⟨3, 3, [XR.fin (A.adjugate 0 0), XR.fin (A.adjugate 0 1),
        XR.fin (A.adjugate 0 2), XR.fin (A.adjugate 1 0), XR.fin (A.adjugate 1 1), XR.fin (A.adjugate 1 2),
        XR.fin (A.adjugate 2 0), XR.fin (A.adjugate 2 1), XR.fin (A.adjugate 2 2)] ++ u⟩ := rfl
    rw [hA, Matrix.adjugate_fin_three]
    simp only [wr, List.cons_append, List.nil_append, List.length_cons, List.set_cons_zero,
      List.set_cons_succ, Nat.zero_lt_succ, Nat.succ_lt_succ_iff, if_true, ok_bind, pure_eq, mtxOf_rows,
      mtxOf_cols]
    simp
    refine ⟨?_, ?_, ?_, ?_, ?_, ?_, ?_, ?_, ?_⟩ <;> ring
  refine ⟨h, ?_⟩
  unfold mtxAdjoint
  rw [if_pos (by rfl), h]

/-- C23, exact behaviour: for every size other than 1 and 3, `zsl_mtx_adjoint` stores the *transpose* of the adjugate (the matrix of
cofactors). -/
theorem mtx_adjoint_exact (junk : ℕ → XR) (A : Matrix (Fin (n + 1)) (Fin (n + 1)) ℝ)
    (B : Matrix (Fin (n + 1)) (Fin (n + 1)) XR) (t u : List XR) (hn : 0 < n) (h3 : n + 1 ≠ 3)
    :
    mtxAdjoint junk (mat A t) (mtxOf B u) = ok (0, mat A.adjugate.transpose u) := by
  unfold mtxAdjoint
  rw [if_neg (by simpa using h3), if_neg (by simp), if_neg (by simp; omega), mat_cols, Nat.add_sub_cancel]
  set F : ℕ → ℕ → XR := ext (A.adjugate.transpose.map XR.fin) with hF
  obtain ⟨M₀, hM₀⟩ := uninit_eq junk n n
  have hloop : (forN (n + 1) (fun i s =>
      forN (n + 1) (fun j (s : XR × Mtx XR × Mtx XR) => do
        let (d, mr, ma) := s
        let sign : XR := if (i + j) % 2 ≠ 0 then lit (-1) else lit 1
        let (_, mr) ← mtxReduce junk (junk 0) (mat A t) mr i j
        let (_, d) ← mtxDeter junk mr d
        let d := d * sign
        let (_, ma) ← mtxSet ma i j d
        return (d, mr, ma)) s) (junk 0, Mtx.uninit junk n n, mtxOf B u)).sat
      (fun s => s.2.2 = mkM (n + 1) (n + 1) F u) := by
    refine (forN_sat (fun i s => (∃ M : Matrix (Fin n) (Fin n) XR, s.2.1 = mtxOf M []) ∧
      s.2.2 = mkM (n + 1) (n + 1) (mix i 0 F (ext B)) u) ?_ ?_).mono ?_
    · refine ⟨⟨M₀, hM₀⟩, ?_⟩
      rw [mtxOf_eq]
      apply mkM_congr
      intro a _ b _
      simp [mix]
    · rintro i hi ⟨d, mr, ma⟩ ⟨h1, h2⟩
      refine (forN_sat (fun j s => (∃ M : Matrix (Fin n) (Fin n) XR, s.2.1 = mtxOf M []) ∧
        s.2.2 = mkM (n + 1) (n + 1) (mix i j F (ext B)) u) ⟨h1, h2⟩ ?_).mono ?_
      · rintro j hj ⟨d, mr, ma⟩ ⟨⟨M, hM⟩, h4⟩
        dsimp only at hM h4 ⊢
        rw [hM, h4]
        have hred := mtx_reduce_correct junk (junk 0) (A.map XR.fin) M t [] ⟨i, hi⟩ ⟨j, hj⟩ hn
        change mtxReduce junk (junk 0) (mat A t) _ i j = ok (0, mat (A.submatrix _ _) []) at hred
        rw [hred]
        simp only [ok_bind]
        obtain ⟨n', rfl⟩ := Nat.exists_eq_succ_of_ne_zero (by omega : n ≠ 0)
        rw [mtx_deter_correct _ _ _ _]
        simp only [ok_bind]
        rw [mkM_set _ _ _ hi hj]
        simp only [ok_bind, pure_eq, sat_ok]
        refine ⟨⟨_, rfl⟩, ?_⟩
        rw [← upd_mix]
        congr 2
        rw [hF, ext_lt _ hi hj]
        simp only [Matrix.map_apply, Matrix.transpose_apply]
        rw [Matrix.adjugate_fin_succ_eq_det_submatrix]
        have hsign : (if (i + j) % 2 ≠ 0 then (lit (-1) : XR) else lit 1) = XR.fin ((-1) ^ (i + j)) := by
          rcases Nat.even_or_odd (i + j) with he | ho
          · rw [if_neg (by rw [Nat.even_iff] at he; omega), he.neg_one_pow]
            simp
          · rw [if_pos (by rw [Nat.odd_iff] at ho; omega), ho.neg_one_pow]
            simp
        rw [hsign, XR.fin_mul, mul_comm]
      · rintro ⟨d, mr, ma⟩ ⟨h3, h4⟩
        refine ⟨h3, ?_⟩
        rw [h4]
        apply mkM_congr
        intro a _ b hb
        unfold mix
        split_ifs <;> first | rfl | (exfalso; omega)
    · rintro ⟨d, mr, ma⟩ ⟨_, h4⟩
      rw [h4]
      apply mkM_congr
      intro a ha b hb
      simp [mix, ha]
  obtain ⟨⟨d, mr, ma⟩, h1, h2⟩ := hloop
  rw [h1]
  simp only [ok_bind, pure_eq]
  dsimp only at h2
  rw [h2, hF, ← mtxOf_eq]
  rfl

/-- C23 `_partial`. `A * adj(A) = det(A) * I` holds for the stored matrix if `A` is 3x3, or symmetric of any size other than 1.
Missing: all other matrices, for which it is false in general (`mtx_adjoint_wrong`, `mtx_adjoint_1x1`). -/
theorem mtx_adjoint_partial (junk : ℕ → XR) (A : Matrix (Fin (n + 1)) (Fin (n + 1)) ℝ)
    (B : Matrix (Fin (n + 1)) (Fin (n + 1)) XR) (t u : List XR) (hn : 0 < n)
    (h : n + 1 = 3 ∨ A.transpose = A) :
    ∃ C : Matrix (Fin (n + 1)) (Fin (n + 1)) ℝ, mtxAdjoint junk (mat A t) (mtxOf B u) = ok (0, mat C u) ∧
      A * C = A.det • (1 : Matrix (Fin (n + 1)) (Fin (n + 1)) ℝ) := by
  refine ⟨A.adjugate, ?_, Matrix.mul_adjugate A⟩
  by_cases h3 : n + 1 = 3
  · obtain rfl : n = 2 := by omega
    exact (mtx_adjoint_3x3_correct junk A B t u).2
  · rw [mtx_adjoint_exact junk A B t u hn h3, Matrix.adjugate_transpose, h.resolve_left h3]

/-- C23, negation: for a 2x2 matrix the stored matrix is not the adjoint. -/
theorem mtx_adjoint_wrong (junk : ℕ → XR) (B : Matrix (Fin 2) (Fin 2) XR) (u : List XR) :
    mtxAdjoint junk (mat !![1, 2; 3, 4] []) (mtxOf B u) = ok (0, mat !![4, -3; -2, 1] u) ∧
    (!![1, 2; 3, 4] : Matrix (Fin 2) (Fin 2) ℝ) * !![4, -3; -2, 1] ≠
      (!![1, 2; 3, 4] : Matrix (Fin 2) (Fin 2) ℝ).det • (1 : Matrix (Fin 2) (Fin 2) ℝ) := by
  constructor
  · rw [mtx_adjoint_exact junk _ B [] u (by omega) (by omega)]
    rw [Matrix.adjugate_fin_two_of]
    congr 3
    funext i j
    fin_cases i <;> fin_cases j <;> rfl
  · intro h
    have := congrFun (congrFun h 0) 1
    simp [Matrix.mul_apply, Fin.sum_univ_two] at this
    norm_num at this

/-- C23, negation: the adjoint of a 1x1 matrix declares an array of size zero on the stack. -/
theorem mtx_adjoint_1x1 (junk : ℕ → R) (m ma : Mtx R) (h1 : m.rows = 1) (h2 : m.cols = 1) :
    mtxAdjoint junk m ma = ub := by
  unfold mtxAdjoint
  rw [if_neg (by omega), if_neg (by omega), if_pos h2]

/-! ## C24: the 3x3 inverse -/

/-- C24. With non-zero determinant the two-sided inverse is stored. -/
theorem mtx_inv_3x3_correct (x0 : XR) (A : Matrix (Fin 3) (Fin 3) ℝ) (B : Matrix (Fin 3) (Fin 3) XR)
    (t u : List XR) (hd : A.det ≠ 0) :
    ∃ C : Matrix (Fin 3) (Fin 3) ℝ, mtxInv3x3 x0 (mat A t) (mtxOf B u) = ok (0, mat C u) ∧
      A * C = 1 ∧ C * A = 1 := by
  refine ⟨(1 / A.det) • A.adjugate, ?_, ?_, ?_⟩
  · unfold mtxInv3x3
    rw [if_neg (by simp), if_neg (by simp), if_neg (by simp), if_neg (by simp), mtx_deter_3x3_correct]
    simp only [ok_bind, ne_eq, not_true_eq_false, if_false]
    rw [(mtx_adjoint_3x3_correct (fun _ => lit 0) A B t u).1]
    simp only [ok_bind, not_true_eq_false, if_false, XR.lit_eq, Rat.cast_zero, Rat.cast_one]
    rw [if_pos ((XR.fin_ne _ _).2 hd), XR.fin_div hd, mtx_scalar_mult_correct]
    rfl
  · rw [Matrix.mul_smul, Matrix.mul_adjugate, smul_smul, one_div, inv_mul_cancel₀ hd, one_smul]
  · rw [Matrix.smul_mul, Matrix.adjugate_mul, smul_smul, one_div, inv_mul_cancel₀ hd, one_smul]

/-- C24. With zero determinant the identity is stored. -/
theorem mtx_inv_3x3_singular (x0 : XR) (A : Matrix (Fin 3) (Fin 3) ℝ) (B : Matrix (Fin 3) (Fin 3) XR)
    (t u : List XR) (hd : A.det = 0) :
    mtxInv3x3 x0 (mat A t) (mtxOf B u) = ok (0, mat (1 : Matrix (Fin 3) (Fin 3) ℝ) u) := by
  unfold mtxInv3x3
  rw [if_neg (by simp), if_neg (by simp), if_neg (by simp), if_neg (by simp), mtx_deter_3x3_correct]
  simp only [ok_bind, ne_eq, not_true_eq_false, if_false]
  rw [(mtx_adjoint_3x3_correct (fun _ => lit 0) A B t u).1]
  simp only [ok_bind, not_true_eq_false, if_false, XR.lit_eq, Rat.cast_zero]
  rw [if_neg (by simp [hd]), mtx_init_identity_real]
  rfl

/-- C24. Any other shape is refused without writing, for every scalar type. -/
theorem mtx_inv_3x3_shape (x0 : R) (m mi : Mtx R)
    (h : m.rows ≠ 3 ∨ m.cols ≠ 3 ∨ mi.rows ≠ 3 ∨ mi.cols ≠ 3) :
    mtxInv3x3 x0 m mi = ok (-EINVAL, mi) := by
  unfold mtxInv3x3
  split_ifs <;> first | rfl | (exfalso; omega)

/-- Non-vacuity: an invertible and a singular 3x3 matrix. -/
example : (!![2, 0, 0; 0, 1, 5; 0, 0, 4] : Matrix (Fin 3) (Fin 3) ℝ).det ≠ 0 ∧
    (!![1, 2, 3; 4, 5, 6; 7, 8, 9] : Matrix (Fin 3) (Fin 3) ℝ).det = 0 := by
  constructor <;> rw [Matrix.det_fin_three] <;> simp; norm_num

end Verif
