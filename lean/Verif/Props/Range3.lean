import Verif.Props.Range2
import Verif.Model.Statistics

/-!
# Overflow and underflow in projections and variances (C139, C140)
-/

namespace Verif

open Out

variable {G : Format} {n : ℕ}

theorem vecProject_B (G : Format) (x y : Fin n → ℝ) (z : Fin n → BX G) (t s w : List (BX G)) (a b : BX G)
    (ha : vecDot (vecB G y s) (vecB G x t) (lit 0) = ok (0, a)) (hb : vecDot (vecB G x t) (vecB G x t) (lit 0) = ok (0, b)) :
    vecProject (vecB G x t) (vecB G y s) (vecOf z w) = ok (0, vecOf (fun i => BX.of G (x i) * (a / b)) w) := by
  unfold vecProject
  rw [if_neg (by simp [vecB]), vec_copy_correct _ (vecB G x t) (vecOf_wf _ t) (by simp [vecB, vecOf, arrOf]), ok_bind]
  have h1 : (⟨(vecB G x t).sz, (vecB G x t).vals ++ List.drop (vecB G x t).sz (vecOf z w).data⟩ : Vec (BX G)) = vecB G x w := by
    unfold vecB
    rw [vecOf_vals, vecOf_sz, vecOf_drop]
    rfl
  simp only [h1, ha, ok_bind, hb]
  unfold vecB
  rw [vec_scalar_mult_correct _ _ (vecOf_wf _ w), vecOf_sz, vecOf_drop, vecOf_vals, List.map_ofFn]
  rfl

/-- C139. Projecting onto a vector whose sum of squares overflows gives the zero vector, with success, if the dot product is finite. -/
theorem vec_project_overflow (G : Format) (x y : Fin n → ℝ) (z : Fin n → BX G) (t s w : List (BX G)) (h : ∃ i, G.over ≤ x i ^ 2)
    (hd : (1 + G.u) ^ (n + 1) * ((∑ i, |y i * x i|) + 2 * n * G.tiny) ≤ G.top) :
    vecProject (vecB G x t) (vecB G y s) (vecOf z w) = ok (0, vecB G (0 : Fin n → ℝ) w) := by
  obtain ⟨r, er, -⟩ := vec_dot_in_range G y x s t (lit 0) hd
  have hb : vecDot (vecB G x t) (vecB G x t) (lit 0) = ok (0, (⟨XR.pinf⟩ : BX G)) := by
    have h1 := (vec_sum_of_sqrs_range G x t).2.1 h
    rw [vecSumOfSqrs, vecDot_B, ok_bind] at h1
    rw [vecDot_B]
    congr 2
    simpa using h1
  rw [vecProject_B G x y z t s w _ _ er hb]
  have hq : BX.of G r / ⟨XR.pinf⟩ = BX.of G 0 := by
    change BX.rd G (XR.fin 0) = _
    rw [BX.rd, G.rnd_zero]
    rfl
  simp only [hq, BX.of_mul, mul_zero, G.rnd_zero]
  rfl

/-- C139. Projecting onto a vector all of whose squares underflow gives only NaN, with success, if the products with the other vector underflow too. -/
theorem vec_project_underflow (G : Format) (x y : Fin n → ℝ) (z : Fin n → BX G) (t s w : List (BX G)) (h : ∀ i, x i ^ 2 < G.tiny)
    (hd : ∀ i, |y i * x i| < G.tiny) :
    vecProject (vecB G x t) (vecB G y s) (vecOf z w) = ok (0, vecOf (fun _ : Fin n => CReal.nan) w) := by
  have ha : vecDot (vecB G y s) (vecB G x t) (lit 0) = ok (0, BX.of G 0) := by
    rw [vecDot_B, accProd_zero]
    intro k hk
    rw [seqOf, dif_pos hk]
    exact hd _
  have hb : vecDot (vecB G x t) (vecB G x t) (lit 0) = ok (0, BX.of G 0) := by
    rw [vecDot_B, accProd_zero]
    intro k hk
    rw [seqOf, dif_pos hk, ← pow_two, abs_of_nonneg (sq_nonneg _)]
    exact h _
  rw [vecProject_B G x y z t s w _ _ ha hb]
  have hq : BX.of G 0 / BX.of G 0 = ⟨XR.nan⟩ := by
    change BX.rd G (XR.div (XR.fin 0) (XR.fin 0)) = _
    simp [XR.div, XR.infOf, BX.rd]
  rw [hq]
  rfl

/-- C139. The distance of two vectors is infinite as soon as the square of the difference of two elements overflows. -/
theorem vec_dist_overflow (G : Format) (x y d : Fin n → ℝ) (t s : List (BX G)) (hd : ∀ i, G.rnd (x i - y i) = XR.fin (d i))
    (h : ∃ i, G.over ≤ d i ^ 2) : vecDist (vecB G x t) (vecB G y s) = ok ⟨XR.pinf⟩ := by
  have hr : (⟨n, List.replicate n (lit 0)⟩ : Vec (BX G)) = vecOf (fun _ : Fin n => lit 0) [] := by
    unfold vecOf arrOf
    simp
  have hs : vecSub (vecB G x t) (vecB G y s) (vecOf (fun _ : Fin n => lit 0) []) = ok (0, vecB G d []) := by
    unfold vecB
    rw [vec_sub_correct _ _ _ (vecOf_wf _ t) (vecOf_wf _ s) (vecOf_wf _ [])]
    simp only [vecOf_sz, and_self, if_true]
    rw [vecOf_vals, vecOf_vals, vecOf_drop, zipWith_ofFn]
    simp only [BX.of_sub, hd]
    rfl
  unfold vecDist
  rw [show (vecB G x t).sz = n from rfl, hr, hs, ok_bind]
  simp only [ne_eq, not_true_eq_false, if_false]
  exact vec_norm_overflow G d [] h

/-- C140. If the sum of two of the data overflows, so does the mean, and the variance and the standard deviation are infinite; even if all data are equal. -/
theorem sta_var_overflow (G : Format) (x : Fin n → ℝ) (hx : ∀ i, 0 ≤ x i) (i j : Fin n) (hij : i < j) (hi : G.rnd (x i) = XR.fin (x i))
    (h : G.over ≤ x i + x j) (hn : (n : ℝ) ≤ G.top) (t : List (BX G)) (junk : ℕ → BX G) :
    staVar junk (vecB G x t) = ok (0, ⟨XR.pinf⟩) ∧ staStdDev junk (vecB G x t) = ok (0, ⟨XR.pinf⟩) := by
  have hn2 : 2 ≤ n := by
    have := j.isLt
    have : (i : ℕ) < j := hij
    omega
  have hm : ∀ m, staMean (vecB G x t) m = ok (0, (⟨XR.pinf⟩ : BX G)) := fun m => by
    unfold staMean
    rw [vec_ar_mean_overflow G x hx i j hij hi h hn t m]
    rfl
  obtain ⟨a, hj⟩ : ∃ a : Fin n → BX G, Vec.uninit junk n = vecOf a [] := ⟨_, vecUninit_eq junk n⟩
  have hw : staDemean (junk 0) (vecB G x t) (Vec.uninit junk n) = ok (0, vecOf (fun _ : Fin n => (⟨XR.ninf⟩ : BX G)) []) := by
    unfold staDemean
    rw [hj, if_neg (by simp [vecB]), vec_copy_correct _ (vecB G x t) (vecOf_wf _ t) (by simp [vecB, vecOf, arrOf]), ok_bind]
    have h1 : (⟨(vecB G x t).sz, (vecB G x t).vals ++ List.drop (vecB G x t).sz (vecOf a []).data⟩ : Vec (BX G)) =
        vecB G x [] := by
      unfold vecB
      rw [vecOf_vals, vecOf_sz, vecOf_drop]
      rfl
    simp only [h1, hm, ok_bind]
    unfold vecB
    rw [vec_scalar_add_correct _ _ (vecOf_wf _ []), vecOf_sz, vecOf_drop, vecOf_vals, List.map_ofFn]
    rfl
  have hv : staVar junk (vecB G x t) = ok (0, ⟨XR.pinf⟩) := by
    unfold staVar
    rw [show (vecB G x t).sz = n from rfl, if_neg (by omega), hw, ok_bind]
    have hs : forN n (fun i (s : BX G) => do
        let a ← rd (vecOf (fun _ : Fin n => (⟨XR.ninf⟩ : BX G)) []).data i
        return s + a * a) (lit 0) = ok ⟨XR.pinf⟩ := by
      rw [forN_accSum (fun _ => (⟨XR.pinf⟩ : BX G))]
      · congr 1
        obtain ⟨k, rfl⟩ : ∃ k, n = k + 1 := ⟨n - 1, by omega⟩
        clear * -
        induction k with
        | zero =>
          change lit 0 + (⟨XR.pinf⟩ : BX G) = _
          rw [G.lit_zero]
          rfl
        | succ k ih =>
          change accSum _ (k + 1) + (⟨XR.pinf⟩ : BX G) = _
          rw [ih]
          rfl
      · intro k hk a
        have h1 := vecOf_rd (fun _ : Fin n => (⟨XR.ninf⟩ : BX G)) [] ⟨k, hk⟩
        simp only at h1
        rw [h1, ok_bind]
        rfl
    dsimp only
    rw [hs, ok_bind, szSub_le (by omega), BX.ofNat_eq]
    have hn0 : (0 : ℝ) ≤ ((n - 1 : ℕ) : ℝ) := by positivity
    have hn1 : ((n - 1 : ℕ) : ℝ) ≤ n := by exact_mod_cast Nat.sub_le n 1
    obtain ⟨r, er, -⟩ := G.fin_of ((n - 1 : ℕ) : ℝ) (by rw [abs_of_nonneg hn0]; linarith)
    have hr := G.nonneg hn0 er
    rw [er]
    congr 2
    apply BX.val_inj
    rw [BX.div_val]
    change (BX.rd G (XR.div XR.pinf (XR.fin r))).val = _
    simp only [XR.div]
    rw [if_neg (by linarith)]
    rfl
  refine ⟨hv, ?_⟩
  rw [staStdDev, hv]
  rfl

/-- Two equal numbers: the variance is infinite. -/
example (lib : Libm) (junk : ℕ → BX (double lib)) :
    staVar junk (vecB (double lib) ![(double lib).top, (double lib).top] []) = ok (0, ⟨XR.pinf⟩) := by
  have h := double_top lib
  have h0 := (double lib).one_le_top
  refine (sta_var_overflow (double lib) ![(double lib).top, (double lib).top] ?_ 0 1 (by decide) (double lib).rnd_top ?_ ?_ [] junk).1
  · intro i
    fin_cases i <;> exact zero_le_one.trans h0
  · change (double lib).over ≤ (double lib).top + (double lib).top
    rw [double_over, show (2 : ℝ) ^ 1024 = 2 ^ 1023 * 2 from pow_succ _ _, mul_two]
    exact add_le_add h h
  · refine le_trans ?_ h
    calc ((2 : ℕ) : ℝ) = 2 ^ 1 := by norm_num
      _ ≤ 2 ^ 1023 := pow_le_pow_right₀ (by norm_num) (by norm_num)

/-- Projecting a vector onto itself, both of size `2 ^ -600`. -/
example (lib : Libm) (z : Fin 1 → BX (double lib)) :
    vecProject (vecB (double lib) ![(1 / 2) ^ 600] []) (vecB (double lib) ![(1 / 2) ^ 600] []) (vecOf z []) =
      ok (0, vecOf (fun _ : Fin 1 => CReal.nan) []) := by
  have h : ((1 / 2 : ℝ) ^ 600) ^ 2 < (double lib).tiny := by
    rw [double_tiny, ← pow_mul]
    exact pow_lt_pow_right_of_lt_one₀ (by norm_num) (by norm_num) (by norm_num)
  refine vec_project_underflow (double lib) ![(1 / 2) ^ 600] ![(1 / 2) ^ 600] z [] [] [] ?_ ?_
  · intro i
    fin_cases i
    exact h
  · intro i
    fin_cases i
    change |(1 / 2 : ℝ) ^ 600 * (1 / 2) ^ 600| < _
    rw [← pow_two, abs_of_nonneg (sq_nonneg _)]
    exact h

end Verif
