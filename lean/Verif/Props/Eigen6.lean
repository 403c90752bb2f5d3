import Verif.Props.Eigen5
import Mathlib.Analysis.Complex.Norm
import Mathlib.LinearAlgebra.Matrix.Adjugate
import Mathlib.Algebra.BigOperators.Ring.Finset
import Mathlib.Algebra.Order.Chebyshev

/-!
# The distance of the eigenvalues from the values returned (C136)
-/

namespace Verif

open Out

variable {n : ℕ}

/-- The determinant is at most the product of the column sums of the absolute values. -/
theorem norm_det_le (C : Matrix (Fin n) (Fin n) ℂ) : ‖C.det‖ ≤ ∏ j, ∑ i, ‖C i j‖ := by
  rw [Matrix.det_apply]
  calc ‖∑ σ : Equiv.Perm (Fin n), Equiv.Perm.sign σ • ∏ i, C (σ i) i‖ ≤ ∑ σ : Equiv.Perm (Fin n), ‖Equiv.Perm.sign σ • ∏ i, C (σ i) i‖ :=
        norm_sum_le _ _
    _ = ∑ σ : Equiv.Perm (Fin n), ∏ i, ‖C (σ i) i‖ := by
        refine Finset.sum_congr rfl fun σ _ => ?_
        rw [← norm_prod]
        rcases Int.units_eq_one_or (Equiv.Perm.sign σ) with h | h <;> rw [h] <;> simp [Units.smul_def]
    _ ≤ ∑ f : Fin n → Fin n, ∏ i, ‖C (f i) i‖ := by
        rw [← Finset.sum_image (s := Finset.univ) (g := fun σ : Equiv.Perm (Fin n) => (σ : Fin n → Fin n))
          (f := fun f => ∏ i, ‖C (f i) i‖) (fun a _ b _ h => Equiv.coe_fn_injective h)]
        exact Finset.sum_le_univ_sum_of_nonneg fun f => Finset.prod_nonneg fun i _ => norm_nonneg _
    _ = ∏ j, ∑ i, ‖C i j‖ := (Fintype.prod_sum fun j i => ‖C i j‖).symm

/-- A vector that `B` almost kills bounds the determinant of `B`. -/
theorem norm_det_mul_le (B : Matrix (Fin n) (Fin n) ℂ) (w : Fin n → ℂ) (p : Fin n) (ε c : ℝ) (hε : ∀ i, ‖B.mulVec w i‖ ≤ ε)
    (hc : ∀ j, ∑ i, ‖B i j‖ ≤ c) : ‖B.det‖ * ‖w p‖ ≤ n * ε * c ^ (n - 1) := by
  have h1 : B.cramer (B.mulVec w) = B.det • w := by
    rw [Matrix.cramer_eq_adjugate_mulVec, Matrix.mulVec_mulVec, Matrix.adjugate_mul, Matrix.smul_mulVec, Matrix.one_mulVec]
  have h2 : (B.updateCol p (B.mulVec w)).det = B.det * w p := by
    rw [← Matrix.cramer_apply, h1]
    rfl
  rw [← norm_mul, ← h2]
  refine (norm_det_le _).trans ?_
  rw [← Finset.mul_prod_erase _ _ (Finset.mem_univ p)]
  have hc0 : 0 ≤ c := (Finset.sum_nonneg fun i _ => norm_nonneg _).trans (hc p)
  refine mul_le_mul ?_ ?_ (Finset.prod_nonneg fun j _ => Finset.sum_nonneg fun i _ => norm_nonneg _) ?_
  · calc ∑ i, ‖B.updateCol p (B.mulVec w) i p‖ = ∑ i, ‖B.mulVec w i‖ := Finset.sum_congr rfl fun i _ => by rw [Matrix.updateCol_self]
      _ ≤ ∑ _i : Fin n, ε := Finset.sum_le_sum fun i _ => hε i
      _ = n * ε := by simp
  · calc ∏ j ∈ Finset.univ.erase p, ∑ i, ‖B.updateCol p (B.mulVec w) i j‖ ≤ ∏ _j ∈ Finset.univ.erase p, c := by
          refine Finset.prod_le_prod (fun j _ => Finset.sum_nonneg fun i _ => norm_nonneg _) fun j hj => ?_
          have hjp := (Finset.mem_erase.1 hj).1
          calc ∑ i, ‖B.updateCol p (B.mulVec w) i j‖ = ∑ i, ‖B i j‖ :=
                Finset.sum_congr rfl fun i _ => by rw [Matrix.updateCol_ne hjp]
            _ ≤ c := hc j
      _ = c ^ (n - 1) := by simp
  · exact mul_nonneg (Nat.cast_nonneg _) ((norm_nonneg _).trans (hε p))

/-- An eigenvalue is at most the sum of the absolute values of the elements. -/
theorem eig_le_sum (N : Matrix (Fin n) (Fin n) ℝ) (w : Fin n → ℂ) (z : ℂ) (hw : w ≠ 0) (h : (N.map Complex.ofReal).mulVec w = z • w) :
    ‖z‖ ≤ ∑ i, ∑ j, |N i j| := by
  obtain ⟨q, hq⟩ := Function.ne_iff.1 hw
  obtain ⟨p, -, hp⟩ := Finset.exists_max_image Finset.univ (fun i => ‖w i‖) ⟨q, Finset.mem_univ q⟩
  have hp0 : 0 < ‖w p‖ := (norm_pos_iff.2 hq).trans_le (hp q (Finset.mem_univ q))
  have h1 : ‖z‖ * ‖w p‖ ≤ (∑ j, |N p j|) * ‖w p‖ := by
    rw [← norm_mul, show z * w p = (z • w) p from rfl, ← h, Matrix.mulVec, dotProduct, Finset.sum_mul]
    refine (norm_sum_le _ _).trans (Finset.sum_le_sum fun j _ => ?_)
    rw [norm_mul, Matrix.map_apply, Complex.norm_real, Real.norm_eq_abs]
    exact mul_le_mul_of_nonneg_left (hp j (Finset.mem_univ j)) (abs_nonneg _)
  refine (le_of_mul_le_mul_right h1 hp0).trans ?_
  exact Finset.single_le_sum (f := fun i => ∑ j, |N i j|) (fun i _ => Finset.sum_nonneg fun j _ => abs_nonneg _) (Finset.mem_univ p)

theorem sq_sum_eq_trace (M : Matrix (Fin n) (Fin n) ℝ) : ∑ i, ∑ j, M i j ^ 2 = (M * M.transpose).trace := by
  unfold Matrix.trace
  refine Finset.sum_congr rfl fun i _ => ?_
  rw [Matrix.diag_apply, Matrix.mul_apply]
  exact Finset.sum_congr rfl fun j _ => by rw [Matrix.transpose_apply, sq]

/-- The column sums of a matrix orthogonally similar to `N`. -/
theorem colSum_le (N W M : Matrix (Fin n) (Fin n) ℝ) (hW : W * W.transpose = 1) (h : W * M = N * W) (j : Fin n) :
    ∑ i, |M i j| ≤ √n * ∑ i, ∑ j, |N i j| := by
  have hW' : W.transpose * W = 1 := mul_eq_one_comm.1 hW
  have hM : M = W.transpose * N * W := by rw [Matrix.mul_assoc, ← h, ← Matrix.mul_assoc, hW', Matrix.one_mul]
  have hsq : ∑ i, ∑ j, M i j ^ 2 = ∑ i, ∑ j, N i j ^ 2 := by
    rw [sq_sum_eq_trace, sq_sum_eq_trace, hM, Matrix.transpose_mul, Matrix.transpose_mul, Matrix.transpose_transpose]
    calc (W.transpose * N * W * (W.transpose * (N.transpose * W))).trace
        = (W.transpose * (N * (W * W.transpose) * N.transpose * W)).trace := by simp only [Matrix.mul_assoc]
      _ = (N * N.transpose * (W * W.transpose)).trace := by
          rw [Matrix.trace_mul_comm, hW, Matrix.mul_one, Matrix.mul_assoc, hW]
      _ = _ := by rw [hW, Matrix.mul_one]
  have hN : ∑ i, ∑ j, N i j ^ 2 ≤ (∑ i, ∑ j, |N i j|) ^ 2 := by
    have h1 : ∑ i, ∑ j, N i j ^ 2 = ∑ x : Fin n × Fin n, |N x.1 x.2| ^ 2 := by
      rw [Fintype.sum_prod_type]
      exact Finset.sum_congr rfl fun i _ => Finset.sum_congr rfl fun j _ => (sq_abs _).symm
    have h2 : ∑ i, ∑ j, |N i j| = ∑ x : Fin n × Fin n, |N x.1 x.2| := by rw [Fintype.sum_prod_type]
    rw [h1, h2]
    exact Finset.sum_sq_le_sq_sum_of_nonneg fun x _ => abs_nonneg _
  have hcol : (∑ i, |M i j|) ^ 2 ≤ n * ∑ i, M i j ^ 2 := by
    have := sq_sum_le_card_mul_sum_sq (s := (Finset.univ : Finset (Fin n))) (f := fun i => |M i j|)
    simpa using this
  have hle : ∑ i, M i j ^ 2 ≤ ∑ i, ∑ j, M i j ^ 2 :=
    Finset.sum_le_sum fun i _ => Finset.single_le_sum (f := fun j => M i j ^ 2) (fun j _ => sq_nonneg _) (Finset.mem_univ j)
  have hK : 0 ≤ ∑ i, ∑ j, |N i j| := Finset.sum_nonneg fun i _ => Finset.sum_nonneg fun j _ => abs_nonneg _
  refine abs_le_of_sq_le_sq' ?_ (by positivity) |>.2
  rw [mul_pow, Real.sq_sqrt (Nat.cast_nonneg _)]
  refine hcol.trans (mul_le_mul_of_nonneg_left ?_ (Nat.cast_nonneg _))
  linarith

/-- Every eigenvalue of a matrix similar to an almost triangular one is near the diagonal. -/
theorem eig_near (N W M : Matrix (Fin n) (Fin n) ℝ) (hW : W * W.transpose = 1) (h : W * M = N * W)
    (hH : ∀ i j : Fin n, j.val + 1 < i.val → M i j = 0) (hs : ∀ i j : Fin n, i.val = j.val + 1 → |M i j| < 1 / 1000000)
    (w : Fin n → ℂ) (z : ℂ) (hw : w ≠ 0) (hz : (N.map Complex.ofReal).mulVec w = z • w) :
    ∏ i, ‖z - (M i i : ℂ)‖ ≤ n * (1 / 1000000) * ((1 + √n) * ∑ i, ∑ j, |N i j|) ^ (n - 1) := by
  have hW' : W.transpose * W = 1 := mul_eq_one_comm.1 hW
  set K := ∑ i, ∑ j, |N i j| with hK
  have hzK := eig_le_sum N w z hw hz
  have mapmul : ∀ X Y : Matrix (Fin n) (Fin n) ℝ, (X * Y).map Complex.ofReal = X.map Complex.ofReal * Y.map Complex.ofReal :=
    fun X Y => Matrix.map_mul (f := Complex.ofRealHom)
  -- the eigenvector of `M`
  set y := (W.transpose.map Complex.ofReal).mulVec w with hy
  have hWy : (W.map Complex.ofReal).mulVec y = w := by
    rw [hy, Matrix.mulVec_mulVec, ← mapmul, hW]
    have : (1 : Matrix (Fin n) (Fin n) ℝ).map Complex.ofReal = 1 := Matrix.map_one _ Complex.ofReal_zero Complex.ofReal_one
    rw [this, Matrix.one_mulVec]
  have hy0 : y ≠ 0 := by
    rintro h0
    rw [h0, Matrix.mulVec_zero] at hWy
    exact hw hWy.symm
  have hMy : (M.map Complex.ofReal).mulVec y = z • y := by
    have hM : M = W.transpose * (N * W) := by rw [← h, ← Matrix.mul_assoc, hW', Matrix.one_mul]
    conv_lhs => rw [hM]
    rw [mapmul, mapmul, ← Matrix.mulVec_mulVec, ← Matrix.mulVec_mulVec, hWy, hz, Matrix.mulVec_smul]
  obtain ⟨q, hq⟩ := Function.ne_iff.1 hy0
  obtain ⟨p, -, hp⟩ := Finset.exists_max_image Finset.univ (fun i => ‖y i‖) ⟨q, Finset.mem_univ q⟩
  have hp0 : 0 < ‖y p‖ := (norm_pos_iff.2 hq).trans_le (hp q (Finset.mem_univ q))
  -- the triangular part
  set T : Matrix (Fin n) (Fin n) ℝ := Matrix.of fun i j => if j < i then 0 else M i j with hT
  set B : Matrix (Fin n) (Fin n) ℂ := z • (1 : Matrix (Fin n) (Fin n) ℂ) - T.map Complex.ofReal with hB
  have hdet : B.det = ∏ i, (z - (M i i : ℂ)) := by
    rw [Matrix.det_of_isUpperTriangular]
    · refine Finset.prod_congr rfl fun i _ => ?_
      simp [hB, hT]
    · intro i j hij
      have hij' : j < i := hij
      simp [hB, hT, hij', Matrix.one_apply_ne (ne_of_gt hij')]
  have hBy : ∀ i, ‖B.mulVec y i‖ ≤ 1 / 1000000 * ‖y p‖ := by
    intro i
    have e : B.mulVec y i = ∑ j, (if j < i then (M i j : ℂ) else 0) * y j := by
      rw [hB, Matrix.sub_mulVec, Matrix.smul_mulVec, Matrix.one_mulVec, ← hMy, Pi.sub_apply, Matrix.mulVec, Matrix.mulVec, dotProduct, dotProduct,
        ← Finset.sum_sub_distrib]
      refine Finset.sum_congr rfl fun j _ => ?_
      rw [← sub_mul, hT]
      congr 1
      simp only [Matrix.map_apply, Matrix.of_apply]
      split_ifs <;> simp
    rw [e]
    by_cases hi : i.val = 0
    · rw [Finset.sum_eq_zero]
      · rw [norm_zero]
        positivity
      · intro j _
        rw [if_neg (fun hh => by have := Fin.lt_def.1 hh; omega), zero_mul]
    · rw [Finset.sum_eq_single (⟨i.val - 1, by omega⟩ : Fin n)]
      · rw [if_pos (Fin.lt_def.2 (by dsimp only; omega)), norm_mul, Complex.norm_real, Real.norm_eq_abs]
        exact mul_le_mul (hs _ _ (by dsimp only; omega)).le (hp _ (Finset.mem_univ _)) (norm_nonneg _) (by norm_num)
      · intro j _ hj
        by_cases hji : j < i
        · rw [if_pos hji, hH i j, Complex.ofReal_zero, zero_mul]
          have h1 := Fin.lt_def.1 hji
          have h2 : j.val ≠ i.val - 1 := fun hh => hj (Fin.ext hh)
          omega
        · rw [if_neg hji, zero_mul]
      · intro hh
        exact absurd (Finset.mem_univ _) hh
  have hcol : ∀ j, ∑ i, ‖B i j‖ ≤ (1 + √n) * K := by
    intro j
    calc ∑ i, ‖B i j‖ ≤ ∑ i, ((if i = j then ‖z‖ else 0) + |M i j|) := by
          refine Finset.sum_le_sum fun i _ => ?_
          rw [hB, Matrix.sub_apply, Matrix.smul_apply, Matrix.one_apply]
          refine (norm_sub_le _ _).trans (add_le_add ?_ ?_)
          · split_ifs <;> simp
          · rw [Matrix.map_apply, Complex.norm_real, Real.norm_eq_abs, hT, Matrix.of_apply]
            split_ifs
            · rw [abs_zero]
              exact abs_nonneg _
            · exact le_rfl
      _ = ‖z‖ + ∑ i, |M i j| := by rw [Finset.sum_add_distrib, Finset.sum_ite_eq' Finset.univ j, if_pos (Finset.mem_univ j)]
      _ ≤ K + √n * K := add_le_add hzK (colSum_le N W M hW h j)
      _ = (1 + √n) * K := by ring
  have hfin := norm_det_mul_le B y p _ _ hBy hcol
  rw [hdet, norm_prod] at hfin
  refine le_of_mul_le_mul_right ?_ hp0
  calc _ ≤ _ := hfin
    _ = _ := by ring

/-- C136. When `zsl_mtx_eigenvalues` returns 0 for a matrix that does not pass the symmetry test, the values stored are numbers `l`,
those from 0 up to 1e-6 replaced by zero and moved to the end, such that every real or complex eigenvalue `z` of the input satisfies
`∏ |z - l i| ≤ n 1e-6 ((1 + √n) K)^(n-1)`, where `K` is the sum of the absolute values of the elements after balancing. -/
theorem mtx_eigenvalues_near (fuel : ℕ) (junk : ℕ → XR) (A N : Matrix (Fin n) (Fin n) ℝ) (x : Fin n → XR) (t u : List XR)
    (iter : ℕ) (hn : 0 < n) (hsz : 2 * n < SIZE_MOD) (hsym : ¬ ∀ i j, |A i j - A j i| < 1 / 1000000) (v' : Vec XR) (rc0 : Int)
    (hN : mtxBalance fuel junk (mat A t) (Mtx.uninit junk n n) = ok (rc0, mat N []))
    (h : mtxEigenvalues fuel junk (mat A t) (vecOf x u) iter = ok (0, v')) :
    ∃ l : Fin n → ℝ,
      v' = ⟨n, ((List.ofFn l).filter (fun a => !tiny a) ++ List.replicate ((List.ofFn l).countP tiny) 0).map XR.fin ++ u⟩ ∧
      ∀ (z : ℂ) (w : Fin n → ℂ), w ≠ 0 → (A.map Complex.ofReal).mulVec w = z • w →
        ∏ i, ‖z - (l i : ℂ)‖ ≤ n * (1 / 1000000) * ((1 + √n) * ∑ i, ∑ j, |N i j|) ^ (n - 1) := by
  obtain ⟨d, N', W, M, hb, hd, hDN, hW, hWM, hH, h1, h2⟩ := eig_cert fuel junk A x t u iter hn hsz hsym 0 v' h
  have hNN : N = N' := by
    rw [hN] at hb
    have h3 : mat N [] = mat N' [] := congrArg Prod.snd (Out.ok.inj hb)
    exact Matrix.ext fun i j => mat_inj h3 i j
  subst hNN
  have hsm : ∀ i j : Fin n, i.val = j.val + 1 → |M i j| < 1 / 1000000 := by
    intro i j hij
    by_contra hge
    have := (h2 ⟨i, j, hij, not_lt.1 hge⟩).1
    simp [ECOMPLEXVAL] at this
  refine ⟨fun i => M i i, (h1 hsm).2, fun z w hw hz => ?_⟩
  have e : ∀ i j, N i j = A i j * d j / d i := by
    intro i j
    have := congrFun (congrFun hDN i) j
    rw [Matrix.diagonal_mul, Matrix.mul_diagonal] at this
    rw [eq_div_iff (hd i).ne', mul_comm, this]
  refine eig_near N W M hW hWM hH hsm (fun i => w i / d i) z ?_ ?_
  · intro h0
    refine hw (funext fun i => ?_)
    have hi := congrFun h0 i
    have hdi : (d i : ℂ) ≠ 0 := Complex.ofReal_ne_zero.2 (hd i).ne'
    simp only [Pi.zero_apply, div_eq_zero_iff, hdi, or_false] at hi
    exact hi
  · funext i
    have hi := congrFun hz i
    rw [Matrix.mulVec, dotProduct, Pi.smul_apply, smul_eq_mul] at hi ⊢
    rw [mul_div_assoc', ← hi, Finset.sum_div]
    refine Finset.sum_congr rfl fun j _ => ?_
    have hdj : (d j : ℂ) ≠ 0 := Complex.ofReal_ne_zero.2 (hd j).ne'
    rw [Matrix.map_apply, Matrix.map_apply, e]
    push_cast
    field_simp

/-- C136. Complex eigenvalues are reported: if the locals of the balancing step hold zero and the input has an eigenvalue whose imaginary
part `b` satisfies `|b|^n > n 1e-6 ((1 + √n) K)^(n-1)`, where `K` is the sum of the absolute values of the elements of the input, then
`zsl_mtx_eigenvalues` returns -ECOMPLEXVAL, whatever the iteration count. Missing: locals that do not hold zero, and eigenvalues closer to the
real line. -/
theorem mtx_eigenvalues_complex_partial (junk : ℕ → XR) (A : Matrix (Fin n) (Fin n) ℝ) (x : Fin n → XR) (t u : List XR)
    (hn : 0 < n) (hsz : 2 * n < SIZE_MOD) (h0 : junk 0 = XR.fin 0) (h1 : junk 1 = XR.fin 0)
    (hsym : ¬ ∀ i j, |A i j - A j i| < 1 / 1000000) (z : ℂ) (w : Fin n → ℂ) (hw : w ≠ 0) (hz : (A.map Complex.ofReal).mulVec w = z • w)
    (hb : n * (1 / 1000000) * ((1 + √n) * ∑ i, ∑ j, |A i j|) ^ (n - 1) < |z.im| ^ n) :
    ∃ F, ∀ fuel ≥ F, ∀ iter, ∃ v', mtxEigenvalues fuel junk (mat A t) (vecOf x u) iter = ok (-ECOMPLEXVAL, v') ∧ v'.sz < n := by
  obtain ⟨U, hU⟩ := uninit_eq junk n n
  obtain ⟨N, k, F1, -, -, hsum, hF1⟩ := mtx_balance_balances_partial junk A U t [] h0 h1
  refine ⟨F1, fun fuel hf iter => ?_⟩
  have hbal : mtxBalance fuel junk (mat A t) (Mtx.uninit junk n n) = ok (0, mat N []) := by
    rw [hU]
    exact hF1 fuel hf
  obtain ⟨⟨rc, v'⟩, hrun, -⟩ := mtx_eigenvalues_safe fuel junk (mat A t) (vecOf x u) iter (mtxOf_wf _ _) (by simp [vecOf, Vec.WF, arrOf])
    (by simp [vecOf, arrOf]) (by simpa using hn) (by simpa using (by omega : n < SIZE_MOD)) _ (by simpa using hbal)
  obtain ⟨d, N', W, M, -, -, -, -, -, -, c1, c2⟩ := eig_cert fuel junk A x t u iter hn hsz hsym rc v' hrun
  by_cases hs : ∀ i j : Fin n, i.val = j.val + 1 → |M i j| < 1 / 1000000
  · exfalso
    obtain ⟨rfl, -⟩ := c1 hs
    obtain ⟨l, -, hl⟩ := mtx_eigenvalues_near fuel junk A N x t u iter hn hsz hsym v' 0 hbal hrun
    have h3 := hl z w hw hz
    have h4 : |z.im| ^ n ≤ ∏ i, ‖z - (l i : ℂ)‖ := by
      calc |z.im| ^ n = ∏ _i : Fin n, |z.im| := by simp
        _ ≤ ∏ i, ‖z - (l i : ℂ)‖ := Finset.prod_le_prod (fun i _ => abs_nonneg _) fun i _ => by
          have := Complex.abs_im_le_norm (z - (l i : ℂ))
          simpa using this
    have h5 : (n : ℝ) * (1 / 1000000) * ((1 + √n) * ∑ i, ∑ j, |N i j|) ^ (n - 1) ≤
        n * (1 / 1000000) * ((1 + √n) * ∑ i, ∑ j, |A i j|) ^ (n - 1) := by
      have hN0 : 0 ≤ ∑ i, ∑ j, |N i j| := Finset.sum_nonneg fun i _ => Finset.sum_nonneg fun j _ => abs_nonneg _
      gcongr
    linarith
  · push Not at hs
    obtain ⟨i, j, hij, hle⟩ := hs
    obtain ⟨rfl, hv⟩ := c2 ⟨i, j, hij, hle⟩
    exact ⟨v', hrun, hv⟩

/-- The hypotheses hold for a rotation by a right angle: it always gives -ECOMPLEXVAL. -/
example (junk : ℕ → XR) (h0 : junk 0 = XR.fin 0) (h1 : junk 1 = XR.fin 0) : ∃ F, ∀ fuel ≥ F, ∀ iter, ∃ v',
    mtxEigenvalues fuel junk (mat !![0, -1; 1, 0] []) (vecOf ![XR.nan, XR.nan] []) iter = ok (-ECOMPLEXVAL, v') ∧ v'.sz < 2 := by
  refine mtx_eigenvalues_complex_partial junk !![0, -1; 1, 0] _ [] [] (by norm_num) (by rw [SIZE_MOD_eq]; norm_num) h0 h1 ?_ Complex.I
    ![Complex.I, 1] ?_ ?_ ?_
  · intro h
    have := h 0 1
    norm_num at this
  · intro h
    have := congrFun h 1
    simp at this
  · funext i
    fin_cases i <;> simp [Matrix.mulVec, dotProduct, Fin.sum_univ_two]
  · simp [Fin.sum_univ_two]
    have : √2 ≤ 2 := by
      rw [Real.sqrt_le_left (by norm_num)]
      norm_num
    nlinarith

end Verif
