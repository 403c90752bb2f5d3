import Verif.Props.Eigen4
import Verif.Props.Svd2

/-!
# What a successful return of the eigenvalue function certifies (C135)

The QR iteration keeps the Hessenberg form. So when no element below the diagonal is as large as 1e-6, the matrix differs from an upper
triangular one only by elements smaller than that.
-/

namespace Verif

open Out

variable {n s : ℕ}

theorem hunit_support (x : Fin (s + 1) → ℝ) (hx : ∀ i, 2 ≤ i.val → x i = 0) (i : Fin (s + 1)) (hi : 2 ≤ i.val) : hunit x i = 0 := by
  have hd : hdir x i = 0 := by
    unfold hdir
    rw [Pi.sub_apply, hx i hi, Pi.single_eq_of_ne (by rintro rfl; simp at hi), sub_zero]
  unfold hunit
  split_ifs
  · rfl
  · change hdir x i / _ = 0
    rw [hd, zero_div]

/-- A reflection whose direction lives in the first two coordinates keeps the others, -/
theorem houseMat_keep (x y : Fin (s + 1) → ℝ) (hx : ∀ i, 2 ≤ i.val → x i = 0) (i : Fin (s + 1)) (hi : 2 ≤ i.val) :
    (houseMat x).mulVec y i = y i := by
  unfold houseMat
  rw [Matrix.add_mulVec, Matrix.one_mulVec, Pi.add_apply, Matrix.smul_mulVec, Pi.smul_apply, Matrix.vecMulVec_mulVec, Pi.smul_apply,
    hunit_support x hx i hi]
  simp

/-- and kills nothing but the first two. -/
theorem houseMat_kill (x y : Fin (s + 1) → ℝ) (hx : ∀ i, 2 ≤ i.val → x i = 0) (hy : ∀ i, i.val < 2 → y i = 0) (i : Fin (s + 1)) :
    (houseMat x).mulVec y i = y i := by
  unfold houseMat
  have h0 : hunit x ⬝ᵥ y = 0 := by
    refine Finset.sum_eq_zero fun l _ => ?_
    by_cases hl : l.val < 2
    · rw [hy l hl, mul_zero]
    · rw [hunit_support x hx l (by omega), zero_mul]
  rw [Matrix.add_mulVec, Matrix.one_mulVec, Pi.add_apply, Matrix.smul_mulVec, Pi.smul_apply, Matrix.vecMulVec_mulVec, Pi.smul_apply, h0]
  simp

/-- Upper Hessenberg form. -/
def Hess (A : Matrix (Fin n) (Fin n) ℝ) : Prop := ∀ i j : Fin n, j.val + 1 < i.val → A i j = 0

/-- The state of the QR decomposition of a Hessenberg matrix between two passes of the loop. -/
def QrHessInv (n : ℕ) (u : List XR) (g : ℕ)
    (st : Mtx XR × Mtx XR × Mtx XR × Mtx XR × Mtx XR × Mtx XR) : Prop :=
  ∃ (M1 M2 M3 M4 : Matrix (Fin n) (Fin n) XR) (Q R : Matrix (Fin n) (Fin n) ℝ),
    st = (mtxOf M1 [], mtxOf M2 [], mtxOf M3 [], mtxOf M4 [], mat Q [], mat R u) ∧ Hess R ∧ Hess Q.transpose ∧
    (∀ i j : Fin n, j.val < g → j < i → R i j = 0) ∧ ∀ i j : Fin n, g < i.val → Q i j = if i = j then 1 else 0

theorem qrHessInv_step (junk : ℕ → XR) (u : List XR) (g : ℕ) (hg : g < n) (hsz : n < SIZE_MOD)
    (st : Mtx XR × Mtx XR × Mtx XR × Mtx XR × Mtx XR × Mtx XR) (h : QrHessInv n u g st) :
    (qrdStep junk n n false g st).sat (QrHessInv n u (g + 1)) := by
  obtain ⟨M1, M2, M3, M4, Q, R, rfl, hR, hQ, hz, hq⟩ := h
  obtain ⟨s, rfl⟩ : ∃ s, n = g + (s + 1) := ⟨n - g - 1, by omega⟩
  have hstep := qrdStep_eq junk g s R Q M1 M2 M3 M4 [] [] [] [] [] u hsz
  set x : Fin (s + 1) → ℝ := fun i => R (Fin.natAdd g i) (Fin.natAdd g 0) with hx
  have hx2 : ∀ i, 2 ≤ i.val → x i = 0 := fun i hi => hR _ _ (by
    change g + 0 + 1 < g + i.val
    omega)
  set H := augm g (houseMat x) with hH
  simp only at hstep
  rw [hstep, sat_ok]
  have hcol : ∀ (M : Matrix (Fin (g + (s + 1))) (Fin (g + (s + 1))) ℝ) i j, (H * M) i j = H.mulVec (fun l => M l j) i := fun M i j => rfl
  refine ⟨_, _, _, _, _, _, rfl, ?_, ?_, ?_, ?_⟩
  · -- `r` stays in Hessenberg form
    intro i j hij
    rw [hcol]
    refine Fin.addCases (motive := fun i => j.val + 1 < i.val → H.mulVec (fun l => R l j) i = 0) (fun i hij => ?_) (fun i hij => ?_) i hij
    · rw [hH, augm_mulVec_low]
      exact hR _ _ hij
    · rw [hH, augm_mulVec_high]
      by_cases hjg : j.val < g
      · have h0 : (fun l : Fin (s + 1) => R (Fin.natAdd g l) j) = 0 := by
          funext l
          exact hz _ _ hjg (Fin.lt_def.2 (by simp; omega))
        rw [h0, Matrix.mulVec_zero]
        rfl
      · have hij' : j.val + 1 < g + i.val := hij
        rw [houseMat_keep x _ hx2 i (by omega)]
        exact hR _ _ hij
  · -- and so does `q`
    intro i j hij
    rw [Matrix.transpose_apply, hcol]
    refine Fin.addCases (motive := fun j => j.val + 1 < i.val → H.mulVec (fun l => Q l i) j = 0) (fun j hij => ?_) (fun j hij => ?_) j hij
    · rw [hH, augm_mulVec_low]
      exact hQ _ _ hij
    · rw [hH, augm_mulVec_high]
      have hij' : g + j.val + 1 < i.val := hij
      have hval : ∀ l : Fin (s + 1), g + l.val ≠ i.val → Q (Fin.natAdd g l) i = 0 := by
        intro l hl
        by_cases h0 : l.val = 0
        · exact hQ i _ (by
            change g + l.val + 1 < i.val
            omega)
        · rw [hq _ _ (by
            change g < g + l.val
            omega), if_neg (fun h => hl (congrArg Fin.val h))]
      by_cases hj : 2 ≤ j.val
      · rw [houseMat_keep x _ hx2 j hj]
        exact hval j (by omega)
      · by_cases hi : g + 1 < i.val
        · rw [houseMat_kill x _ hx2 (fun l hl => hval l (by omega))]
          exact hval j (by omega)
        · omega
  · intro i j hj hji
    rw [hcol]
    refine Fin.addCases (motive := fun i => j < i → H.mulVec (fun l => R l j) i = 0) (fun i hji => ?_) (fun i hji => ?_) i hji
    · rw [hH, augm_mulVec_low]
      refine hz _ _ ?_ hji
      have := Fin.lt_def.1 hji
      have h2 := i.2
      simp at this
      omega
    · rw [hH, augm_mulVec_high]
      by_cases hjg : j.val < g
      · have h0 : (fun l : Fin (s + 1) => R (Fin.natAdd g l) j) = 0 := by
          funext l
          exact hz _ _ hjg (Fin.lt_def.2 (by simp; omega))
        rw [h0, Matrix.mulVec_zero]
        rfl
      · obtain rfl : j = Fin.natAdd g 0 := by
          ext
          simp
          omega
        rw [houseMat_mulVec, Pi.single_eq_of_ne]
        rintro rfl
        exact lt_irrefl _ hji
  · intro i j hi
    rw [hcol]
    refine Fin.addCases (motive := fun i => g + 1 < i.val → H.mulVec (fun l => Q l j) i = if i = j then 1 else 0) (fun i hi => ?_)
      (fun i hi => ?_) i hi
    · have h1 : i.val < g := i.2
      have h2 : g + 1 < i.val := hi
      omega
    · have h2 : g + 1 < g + i.val := hi
      rw [hH, augm_mulVec_high, houseMat_keep x _ hx2 i (by omega)]
      exact hq _ _ (by
        change g < g + i.val
        omega)

/-- C135. The QR decomposition of a Hessenberg matrix has a Hessenberg factor `Q`, so a QR step keeps the Hessenberg form. -/
theorem mtx_qrd_keeps_hess (junk : ℕ → XR) (A : Matrix (Fin n) (Fin n) ℝ) (B C : Matrix (Fin n) (Fin n) XR) (t u w : List XR)
    (hn : 0 < n) (hsz : n < SIZE_MOD) (hA : ∀ i j : Fin n, j.val + 1 < i.val → A i j = 0) :
    ∃ Q R : Matrix (Fin n) (Fin n) ℝ, mtxQrd junk (mat A t) (mtxOf B w) (mtxOf C u) false = ok (0, mat Q w, mat R u) ∧
      (∀ i j : Fin n, j.val + 1 < i.val → Q i j = 0) ∧ ∀ i j : Fin n, j.val + 1 < i.val → (R * Q) i j = 0 := by
  obtain ⟨Q', R', hrun, -, -, hR', -⟩ := mtx_qrd_correct junk A B C t u w hn hsz
  have key : ∃ Q R : Matrix (Fin n) (Fin n) ℝ, mtxQrd junk (mat A t) (mtxOf B w) (mtxOf C u) false = ok (0, mat Q w, mat R u) ∧ Hess Q := by
    unfold mtxQrd
    rw [if_neg (by simp; omega)]
    simp only [mat_rows, mat_cols]
    obtain ⟨U, hU⟩ := uninit_eq junk n n
    rw [hU, mtx_init_null]
    simp only [ok_bind]
    rw [id_init]
    simp only [ok_bind]
    rw [show mat A t = mtxOf (A.map XR.fin) t from rfl, mtx_copy_correct]
    simp only [ok_bind]
    rw [szSub_le (by omega)]
    have hloop := forN_sat (n := n - 1) (f := fun g s => qrdStep junk n n false g s) (s := (mtxOf U [], mtxOf U [],
      mtxOf (Matrix.of fun _ _ => lit 0) [], mtxOf U [], mat (1 : Matrix (Fin n) (Fin n) ℝ) [], mtxOf (A.map XR.fin) u))
      (QrHessInv n u) ⟨_, _, _, _, _, _, rfl, hA, fun i j hij => by
        rw [Matrix.transpose_one]
        exact Matrix.one_apply_ne (fun h => by rw [h] at hij; omega), fun i j h => absurd h (by omega), fun i j _ => Matrix.one_apply⟩
      (fun g hg s hs => qrHessInv_step junk u g (by omega) hsz s hs)
    obtain ⟨st, hst, M1, M2, M3, M4, Q, R, rfl, -, hQ, -⟩ := hloop
    rw [hst]
    simp only [ok_bind]
    rw [mtx_trans_real _ _ _ _ _ hn]
    exact ⟨Q.transpose, R, rfl, hQ⟩
  obtain ⟨Q, R, hrun2, hQ⟩ := key
  refine ⟨Q, R, hrun2, hQ, ?_⟩
  rw [hrun2] at hrun
  simp only [ok.injEq, Prod.mk.injEq, true_and] at hrun
  have hRR : ∀ i j, R i j = R' i j := mat_inj hrun.2
  intro i j hij
  rw [Matrix.mul_apply]
  refine Finset.sum_eq_zero fun l _ => ?_
  by_cases hl : l < i
  · rw [hRR, hR' i l hl, zero_mul]
  · rw [hQ l j (by
      have := Fin.le_def.1 (not_lt.1 hl)
      omega), mul_zero]

/-- C135. The QR iteration keeps the Hessenberg form, for every iteration count. -/
theorem mtx_qrd_iter_keeps_hess (junk : ℕ → XR) (A : Matrix (Fin n) (Fin n) ℝ) (B : Matrix (Fin n) (Fin n) XR) (t u : List XR)
    (iter : ℕ) (hn : 0 < n) (hsz : n < SIZE_MOD) (hA : ∀ i j : Fin n, j.val + 1 < i.val → A i j = 0) :
    ∃ P M : Matrix (Fin n) (Fin n) ℝ, mtxQrdIter junk (mat A t) (mtxOf B u) iter = ok (0, mat M u) ∧
      P * P.transpose = 1 ∧ M = P * A * P.transpose ∧ ∀ i j : Fin n, j.val + 1 < i.val → M i j = 0 := by
  obtain ⟨P, M, hrun, hP, hM⟩ := mtx_qrd_iter_correct junk A B t u iter hn hsz
  refine ⟨P, M, hrun, hP, hM, ?_⟩
  obtain ⟨U, hU⟩ := uninit_eq junk n n
  unfold mtxQrdIter at hrun
  rw [if_neg (by simp; omega), show mat A t = mtxOf (A.map XR.fin) t from rfl, mtx_copy_correct, ok_bind] at hrun
  simp only [mtxOf_rows] at hrun
  rw [if_neg (by simp), hU] at hrun
  have hloop : (forN iter (fun _ (s : Mtx XR × Mtx XR × Mtx XR) => do
        let x ← mtxQrd junk s.2.2 s.1 s.2.1 false
        let y ← mtxMult x.2.2 x.2.1 s.2.2
        return (x.2.1, x.2.2, y.2)) (mtxOf U [], mtxOf U [], mtxOf (A.map XR.fin) u)).sat fun s =>
      (∃ B : Matrix (Fin n) (Fin n) XR, s.1 = mtxOf B []) ∧ (∃ B : Matrix (Fin n) (Fin n) XR, s.2.1 = mtxOf B []) ∧
      ∃ M : Matrix (Fin n) (Fin n) ℝ, s.2.2 = mat M u ∧ Hess M := by
    refine forN_sat (fun _ (s : Mtx XR × Mtx XR × Mtx XR) => (∃ B : Matrix (Fin n) (Fin n) XR, s.1 = mtxOf B []) ∧ (∃ B : Matrix (Fin n) (Fin n) XR, s.2.1 = mtxOf B []) ∧
      ∃ M : Matrix (Fin n) (Fin n) ℝ, s.2.2 = mat M u ∧ Hess M) ⟨⟨U, rfl⟩, ⟨U, rfl⟩, A, rfl, hA⟩ ?_
    rintro k _ ⟨q, r, mo⟩ ⟨⟨B1, rfl⟩, ⟨B2, rfl⟩, M, hM, hH⟩
    dsimp only at hM
    subst hM
    obtain ⟨Q, R, hqr, -, hRQ⟩ := mtx_qrd_keeps_hess junk M B1 B2 u [] [] hn hsz hH
    dsimp only
    rw [hqr, ok_bind]
    dsimp only
    rw [show mat M u = mtxOf (M.map XR.fin) u from rfl, mtx_mult_correct, ok_bind]
    dsimp only
    rw [pure_eq, sat_ok]
    exact ⟨⟨_, rfl⟩, ⟨_, rfl⟩, R * Q, rfl, hRQ⟩
  obtain ⟨st, hst, -, -, M', hM', hH⟩ := hloop
  rw [hst, ok_bind, hM'] at hrun
  have h2 : mat M' u = mat M u := congrArg Prod.snd (Out.ok.inj hrun)
  intro i j hij
  rw [← mat_inj h2 i j]
  exact hH i j hij

/-- The scan of the subdiagonal stores at most one value per position, and a value for every position only when every element it has
passed is small. -/
theorem eigScan_count (M : Matrix (Fin n) (Fin n) ℝ) (fuel g real real' : ℕ) (sd dg sd' dg' : XR) (vd vd' : List XR)
    (h : eigScan fuel (mat M []) (n - 1) g sd dg vd real = ok (sd', dg', vd', real')) :
    real' ≤ real + (n - 1 - g) ∧ (real' = real + (n - 1 - g) → ∀ i j : Fin n, i.val = j.val + 1 → g ≤ j.val → |M i j| < 1 / 1000000) := by
  induction fuel generalizing g sd dg vd real with
  | zero =>
    unfold eigScan at h
    by_cases hlt : g < n - 1
    · rw [if_pos hlt] at h
      cases h
    · rw [if_neg hlt] at h
      obtain ⟨-, -, -, rfl⟩ : sd = sd' ∧ dg = dg' ∧ vd = vd' ∧ real = real' := by simpa using h
      exact ⟨by omega, fun _ i j hij hg => by omega⟩
  | succ fuel ih =>
    unfold eigScan at h
    by_cases hlt : g < n - 1
    · rw [if_pos hlt] at h
      dsimp only at h
      have h1 := mtx_get_correct (M.map XR.fin) [] sd ⟨g + 1, by omega⟩ ⟨g, by omega⟩
      have h2 := mtx_get_correct (M.map XR.fin) [] dg ⟨g, by omega⟩ ⟨g, by omega⟩
      dsimp only at h1 h2
      rw [show mat M [] = mtxOf (M.map XR.fin) [] from rfl, h1, ok_bind] at h
      dsimp only at h
      by_cases hsm : |M ⟨g + 1, by omega⟩ ⟨g, by omega⟩| < 1 / 1000000
      · have hm := abs_lt.1 hsm
        rw [Matrix.map_apply, if_neg (by rw [lit_micro]; simp only [XR.fin_neg, Bool.or_eq_true, not_or, XR.fin_ge, XR.fin_le, not_le]; norm_num at hm ⊢; exact ⟨hm.2, hm.1⟩), h2, ok_bind] at h
        dsimp only at h
        obtain ⟨vd2, -, h⟩ := run_inv h
        obtain ⟨h3, h4⟩ := ih _ _ _ _ _ h
        refine ⟨by omega, fun he i j hij hg => ?_⟩
        by_cases hjg : j.val = g
        · have e : M i j = M ⟨g + 1, by omega⟩ ⟨g, by omega⟩ := congrArg₂ M (Fin.ext (by dsimp only; omega)) (Fin.ext hjg)
          rw [e]
          exact hsm
        · exact h4 (by omega) i j hij (by omega)
      · rw [Matrix.map_apply, if_pos (by
          rw [lit_micro]
          simp only [XR.fin_neg, Bool.or_eq_true, XR.fin_ge, XR.fin_le]
          rw [not_lt, le_abs] at hsm
          norm_num at hsm ⊢
          rcases hsm with h | h
          · exact Or.inl h
          · exact Or.inr (by linarith))] at h
        obtain ⟨h3, h4⟩ := ih _ _ _ _ _ h
        exact ⟨by omega, fun he => by omega⟩
    · rw [if_neg hlt] at h
      obtain ⟨-, -, -, rfl⟩ : sd = sd' ∧ dg = dg' ∧ vd = vd' ∧ real = real' := by simpa using h
      exact ⟨by omega, fun _ i j hij hg => by omega⟩

/-- When some element below the diagonal is as large as 1e-6, the asymmetric branch reports complex eigenvalues. -/
theorem eig_asym_large (fuel : ℕ) (junk : ℕ → XR) (A N H M Q : Matrix (Fin n) (Fin n) ℝ) (x : Fin n → XR) (t u : List XR) (iter : ℕ)
    (hn : 0 < n) (rc0 : Int) (hb : mtxBalance fuel junk (mat A t) (Mtx.uninit junk n n) = ok (rc0, mat N []))
    (hqr : mtxQrd junk (mat N []) (Mtx.uninit junk n n) (Mtx.uninit junk n n) true = ok (0, mat Q [], mat H []))
    (hit : mtxQrdIter junk (mat H []) (mat Q []) iter = ok (0, mat M []))
    (hM : ¬ ∀ i j : Fin n, i.val = j.val + 1 → |M i j| < 1 / 1000000) (hsym : ¬ ∀ i j, |A i j - A j i| < 1 / 1000000) (rc : Int)
    (v' : Vec XR) (h : mtxEigenvalues fuel junk (mat A t) (vecOf x u) iter = ok (rc, v')) : rc = -ECOMPLEXVAL ∧ v'.sz < n := by
  have hn2 : 2 ≤ n := by
    by_contra h
    have : n = 1 := by omega
    subst this
    refine hsym fun i j => ?_
    rw [Subsingleton.elim i j, sub_self, abs_zero]
    norm_num
  unfold mtxEigenvalues at h
  rw [if_neg (by simp; omega)] at h
  simp only [mat_rows] at h
  rw [hb, ok_bind] at h
  dsimp only at h
  rw [hqr, ok_bind] at h
  dsimp only at h
  rw [hit, ok_bind] at h
  dsimp only at h
  rw [vecInit_vec, ok_bind] at h
  dsimp only at h
  obtain ⟨b, hb1, hb2⟩ := mtx_is_sym_correct (junk 0) A t
  have hbf : b = false := by
    cases b
    · rfl
    · exact absurd (hb2.1 rfl) hsym
  rw [hb1, hbf, ok_bind, if_neg (by simp), szSub_le (by omega), szSub_le (by omega)] at h
  obtain ⟨⟨sd', dg', vd', real'⟩, hscan, h⟩ := run_inv h
  obtain ⟨h3, h4⟩ := eigScan_count M _ _ _ _ _ _ _ _ _ _ hscan
  have hlt : real' < n - 1 := by
    by_contra hge
    exact hM fun i j hij => h4 (by omega) i j hij (by omega)
  dsimp only at h
  obtain ⟨⟨rc1, sd2⟩, -, h⟩ := run_inv h
  obtain ⟨⟨vd2, real2⟩, hr, h⟩ := run_inv h
  have hreal2 : real2 < n := by
    dsimp only at hr
    split_ifs at hr
    · obtain ⟨-, rfl⟩ : vd' = vd2 ∧ real' = real2 := by simpa using hr
      omega
    · obtain ⟨⟨rc3, dg3⟩, -, hr⟩ := run_inv hr
      obtain ⟨vd3, -, hr⟩ := run_inv hr
      obtain ⟨-, rfl⟩ : vd3 = vd2 ∧ real' + 1 = real2 := by simpa [pure_eq] using hr
      omega
  dsimp only at h
  have h := (if_pos (show real2 ≠ n by omega)).symm.trans h
  rw [pure_eq] at h
  obtain ⟨rfl, rfl⟩ : -ECOMPLEXVAL = rc ∧ (⟨real2, vd2⟩ : Vec XR) = v' := by simpa using h
  exact ⟨rfl, hreal2⟩

/-- The certificate with the matrix `N` the balancing stores. -/
theorem eig_cert (fuel : ℕ) (junk : ℕ → XR) (A : Matrix (Fin n) (Fin n) ℝ) (x : Fin n → XR) (t u : List XR)
    (iter : ℕ) (hn : 0 < n) (hsz : 2 * n < SIZE_MOD) (hsym : ¬ ∀ i j, |A i j - A j i| < 1 / 1000000) (rc : Int) (v' : Vec XR)
    (h : mtxEigenvalues fuel junk (mat A t) (vecOf x u) iter = ok (rc, v')) :
    ∃ (d : Fin n → ℝ) (N W M : Matrix (Fin n) (Fin n) ℝ), mtxBalance fuel junk (mat A t) (Mtx.uninit junk n n) = ok (0, mat N []) ∧
      (∀ i, 0 < d i) ∧ Matrix.diagonal d * N = A * Matrix.diagonal d ∧ W * W.transpose = 1 ∧ W * M = N * W ∧
      (∀ i j : Fin n, j.val + 1 < i.val → M i j = 0) ∧
      ((∀ i j : Fin n, i.val = j.val + 1 → |M i j| < 1 / 1000000) → rc = 0 ∧
        v' = ⟨n, ((List.ofFn fun i => M i i).filter (fun a => !tiny a) ++
          List.replicate ((List.ofFn fun i => M i i).countP tiny) 0).map XR.fin ++ u⟩) ∧
      ((∃ i j : Fin n, i.val = j.val + 1 ∧ 1 / 1000000 ≤ |M i j|) → rc = -ECOMPLEXVAL ∧ v'.sz < n) := by
  obtain ⟨U, hU⟩ := uninit_eq junk n n
  cases hb : mtxBalance fuel junk (mat A t) (Mtx.uninit junk n n) with
  | ub =>
    unfold mtxEigenvalues at h
    rw [if_neg (by simp; omega)] at h
    simp only [mat_rows] at h
    rw [hb] at h
    cases h
  | ok bal =>
    obtain ⟨rc0, mb⟩ := bal
    have hb' := hb
    rw [hU] at hb'
    obtain ⟨rfl, d, hd, rfl⟩ := mtx_balance_correct fuel junk A U t [] _ _ hb'
    set N : Matrix (Fin n) (Fin n) ℝ := Matrix.of fun i j => A i j * d j / d i with hN
    obtain ⟨Q, H, hqr, hQ, hQ', hH, hNQ⟩ := mtx_qrd_hess_correct junk N U U [] [] [] hn hsz
    rw [← hU] at hqr
    obtain ⟨P, M, hit, hP, hM, hMH⟩ := mtx_qrd_iter_keeps_hess junk H (Q.map XR.fin) [] [] iter hn (by omega) hH
    have hit' : mtxQrdIter junk (mat H []) (mat Q []) iter = ok (0, mat M []) := hit
    have hP' : P.transpose * P = 1 := mul_eq_one_comm.1 hP
    refine ⟨d, N, Q * P.transpose, M, rfl, hd, ?_, ?_, ?_, hMH, fun hs => ?_, fun hl => ?_⟩
    · ext i j
      rw [Matrix.diagonal_mul, Matrix.mul_diagonal, hN, Matrix.of_apply]
      field_simp [(hd i).ne']
    · rw [Matrix.transpose_mul, Matrix.transpose_transpose, Matrix.mul_assoc, ← Matrix.mul_assoc P.transpose, hP', Matrix.one_mul, hQ]
    · rw [hM, ← hNQ]
      calc Q * P.transpose * (P * H * P.transpose) = Q * (P.transpose * P) * H * P.transpose := by simp only [Matrix.mul_assoc]
        _ = Q * H * P.transpose := by rw [hP', Matrix.mul_one]
        _ = Q * H * (Q.transpose * Q) * P.transpose := by rw [hQ', Matrix.mul_one]
        _ = Q * H * Q.transpose * (Q * P.transpose) := by simp only [Matrix.mul_assoc]
    · have := eig_asym fuel junk A N H M Q x t u iter hn 0 hb hqr hit' hs hsym
      rw [h] at this
      simpa using this
    · refine eig_asym_large fuel junk A N H M Q x t u iter hn 0 hb hqr hit' (fun hs => ?_) hsym rc v' h
      obtain ⟨i, j, hij, hle⟩ := hl
      exact absurd (hs i j hij) (not_lt.2 hle)

/-- C135. For a matrix that does not pass the symmetry test, whatever the iteration count, the uninitialised memory and the sizes the
balancing chooses: `zsl_mtx_eigenvalues` works with a matrix `M` similar to the input (by a positive scaling `d` and an orthogonal
`W`) that has no element two or more places below the diagonal. It returns 0 exactly when every element of `M` just below the
diagonal is smaller than 1e-6, and then the values are the diagonal of `M`, the ones from 0 up to 1e-6 replaced by zero and moved to
the end. Otherwise it returns -ECOMPLEXVAL with fewer than `n` values. -/
theorem mtx_eigenvalues_certificate (fuel : ℕ) (junk : ℕ → XR) (A : Matrix (Fin n) (Fin n) ℝ) (x : Fin n → XR) (t u : List XR)
    (iter : ℕ) (hn : 0 < n) (hsz : 2 * n < SIZE_MOD) (hsym : ¬ ∀ i j, |A i j - A j i| < 1 / 1000000) (rc : Int) (v' : Vec XR)
    (h : mtxEigenvalues fuel junk (mat A t) (vecOf x u) iter = ok (rc, v')) :
    ∃ (d : Fin n → ℝ) (W M : Matrix (Fin n) (Fin n) ℝ), (∀ i, 0 < d i) ∧ W * W.transpose = 1 ∧
      Matrix.diagonal d * W * M = A * (Matrix.diagonal d * W) ∧ (∀ i j : Fin n, j.val + 1 < i.val → M i j = 0) ∧
      ((∀ i j : Fin n, i.val = j.val + 1 → |M i j| < 1 / 1000000) → rc = 0 ∧
        v' = ⟨n, ((List.ofFn fun i => M i i).filter (fun a => !tiny a) ++
          List.replicate ((List.ofFn fun i => M i i).countP tiny) 0).map XR.fin ++ u⟩) ∧
      ((∃ i j : Fin n, i.val = j.val + 1 ∧ 1 / 1000000 ≤ |M i j|) → rc = -ECOMPLEXVAL ∧ v'.sz < n) := by
  obtain ⟨d, N, W, M, -, hd, hDN, hW, hWM, hH, h1, h2⟩ := eig_cert fuel junk A x t u iter hn hsz hsym rc v' h
  refine ⟨d, W, M, hd, hW, ?_, hH, h1, h2⟩
  rw [Matrix.mul_assoc, hWM, ← Matrix.mul_assoc, hDN, Matrix.mul_assoc]

/-- C135. The backward error of a successful return: the values are, up to zeroing those from 0 up to 1e-6, exactly the eigenvalues
with multiplicity of a matrix `A'`, and `A' - A` becomes, in the coordinates given by the columns of an invertible `S`, a matrix whose
only elements lie just below the diagonal and are smaller than 1e-6. -/
theorem mtx_eigenvalues_backward (fuel : ℕ) (junk : ℕ → XR) (A : Matrix (Fin n) (Fin n) ℝ) (x : Fin n → XR) (t u : List XR)
    (iter : ℕ) (hn : 0 < n) (hsz : 2 * n < SIZE_MOD) (hsym : ¬ ∀ i j, |A i j - A j i| < 1 / 1000000) (v' : Vec XR)
    (h : mtxEigenvalues fuel junk (mat A t) (vecOf x u) iter = ok (0, v')) :
    ∃ (A' S S' E : Matrix (Fin n) (Fin n) ℝ) (l : Fin n → ℝ), S * S' = 1 ∧ A = A' + S * E * S' ∧
      (∀ i j, E i j ≠ 0 → i.val = j.val + 1) ∧ (∀ i j, |E i j| < 1 / 1000000) ∧
      A'.charpoly = ∏ i, (Polynomial.X - Polynomial.C (l i)) ∧ ∑ i, l i = A.trace ∧
      v' = ⟨n, ((List.ofFn l).filter (fun a => !tiny a) ++ List.replicate ((List.ofFn l).countP tiny) 0).map XR.fin ++ u⟩ := by
  obtain ⟨d, W, M, hd, hW, hAM, hH, h1, h2⟩ := mtx_eigenvalues_certificate fuel junk A x t u iter hn hsz hsym 0 v' h
  have hsm : ∀ i j : Fin n, i.val = j.val + 1 → |M i j| < 1 / 1000000 := by
    intro i j hij
    by_contra hge
    have := (h2 ⟨i, j, hij, not_lt.1 hge⟩).1
    simp [ECOMPLEXVAL] at this
  have hW' : W.transpose * W = 1 := mul_eq_one_comm.1 hW
  set S := Matrix.diagonal d * W with hS
  set S' := W.transpose * Matrix.diagonal (fun i => (d i)⁻¹) with hS'
  have hSS : S * S' = 1 := by
    rw [hS, hS', Matrix.mul_assoc, ← Matrix.mul_assoc W, hW, Matrix.one_mul, Matrix.diagonal_mul_diagonal, ← Matrix.diagonal_one]
    congr 1
    funext i
    exact mul_inv_cancel₀ (hd i).ne'
  have hSS' : S' * S = 1 := mul_eq_one_comm.1 hSS
  set E : Matrix (Fin n) (Fin n) ℝ := Matrix.of fun i j => if i.val = j.val + 1 then M i j else 0 with hE
  set T := M - E with hT
  have hTu : ∀ i j, j < i → T i j = 0 := by
    intro i j hji
    have := Fin.lt_def.1 hji
    rw [hT, Matrix.sub_apply, hE, Matrix.of_apply]
    by_cases hij : i.val = j.val + 1
    · rw [if_pos hij, sub_self]
    · rw [if_neg hij, hH i j (by omega), sub_zero]
  have hTd : ∀ i, T i i = M i i := by
    intro i
    rw [hT, Matrix.sub_apply, hE, Matrix.of_apply, if_neg (by omega), sub_zero]
  have hA : A = S * M * S' := by rw [hAM, Matrix.mul_assoc, hSS, Matrix.mul_one]
  refine ⟨S * T * S', S, S', E, fun i => M i i, hSS, ?_, ?_, ?_, ?_, ?_, (h1 hsm).2⟩
  · rw [← Matrix.add_mul, ← Matrix.mul_add, hT, sub_add_cancel]
    exact hA
  · intro i j hne
    by_contra hij
    exact hne (by rw [hE, Matrix.of_apply, if_neg hij])
  · intro i j
    rw [hE, Matrix.of_apply]
    by_cases hij : i.val = j.val + 1
    · rw [if_pos hij]
      exact hsm i j hij
    · rw [if_neg hij, abs_zero]
      norm_num
  · have hch : (S * T * S').charpoly = T.charpoly := by
      rw [Matrix.charpoly_mul_comm, ← Matrix.mul_assoc, hSS', Matrix.one_mul]
    rw [hch, Matrix.charpoly_of_isUpperTriangular T (fun i j hij => hTu i j hij)]
    exact Finset.prod_congr rfl fun i _ => by rw [hTd]
  · have : A.trace = M.trace := by rw [hA, Matrix.mul_assoc, Matrix.trace_mul_comm, Matrix.mul_assoc, hSS', Matrix.mul_one]
    rw [this]
    rfl

/-- The hypotheses hold for the matrix with rows (1, 0) and (2, 3): with enough iterations the function returns 0, and every such return
has the backward error above. -/
example (junk : ℕ → XR) (h0 : junk 0 = XR.fin 0) (h1 : junk 1 = XR.fin 0) : ∃ fuel iter v' l,
    mtxEigenvalues fuel junk (mat !![1, 0; 2, 3] []) (vecOf ![XR.nan, XR.nan] []) iter = ok (0, v') ∧ ∑ i : Fin 2, l i = 4 ∧
      v' = ⟨2, ((List.ofFn l).filter (fun a => !tiny a) ++ List.replicate ((List.ofFn l).countP tiny) 0).map XR.fin ++ []⟩ := by
  obtain ⟨F, hF⟩ := mtx_eigenvalues_converge_distinct_partial junk !![1, 0; 2, 3] ![3, 1] ![XR.nan, XR.nan] [] [] (by norm_num)
    (by rw [SIZE_MOD_eq]; norm_num) (by
      rw [Matrix.charpoly_fin_two, Fin.prod_univ_two]
      simp [Matrix.trace_fin_two, Matrix.det_fin_two]
      rw [show (Polynomial.C (3 : ℝ)) = 3 from map_ofNat Polynomial.C 3]
      ring) (by
      intro i j h
      fin_cases i <;> fin_cases j <;> first | rfl | (norm_num at h)) (by
      intro i j
      fin_cases i <;> fin_cases j <;> norm_num) (by
      intro i
      right
      fin_cases i <;> norm_num) h0 h1
  obtain ⟨σ, hσ⟩ := hF F le_rfl
  obtain ⟨K, hK⟩ := hσ 1 one_pos
  obtain ⟨y, hy, -⟩ := hK K le_rfl
  obtain ⟨A', S, S', E, l, -, -, -, -, -, htr, hv⟩ := mtx_eigenvalues_backward F junk !![1, 0; 2, 3] ![XR.nan, XR.nan] [] [] K (by norm_num)
    (by rw [SIZE_MOD_eq]; norm_num) (fun h => by have := h 0 1; norm_num at this) _ hy
  refine ⟨F, K, _, l, hy, ?_, hv⟩
  rw [htr, Matrix.trace_fin_two]
  norm_num

end Verif
