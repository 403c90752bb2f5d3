import Verif.Props.Balance
import Verif.Props.Decomp5
import Verif.Props.Safe5
import Verif.Props.Vectors3
import Verif.Lemmas.Fusion

/-!
# Triangular matrices: QR decomposition, QR iteration and eigenvalues (C118)

A column that already lies on the first axis is left alone by the reflection, so the QR decomposition of an upper triangular matrix
is trivial and the QR iteration does not move it.
-/

namespace Verif

open Out

variable {n s : ℕ}

theorem houseMat_axis (x : Fin (s + 1) → ℝ) (hx : ∀ i, i ≠ 0 → x i = 0) : houseMat x = 1 := by
  have hxs : x = Pi.single 0 (x 0) := by
    funext i
    by_cases hi : i = 0
    · rw [hi, Pi.single_eq_same]
    · rw [Pi.single_eq_of_ne hi, hx i hi]
  have hdot : x ⬝ᵥ x = x 0 * x 0 := by
    conv_lhs => rw [hxs]
    rw [single_dotProduct, Pi.single_eq_same]
  have hz : hdir x = 0 := by
    have h1 : hsign x * Real.sqrt (x ⬝ᵥ x) = x 0 := by
      rw [hdot, Real.sqrt_mul_self_eq_abs]
      unfold hsign
      split_ifs with h
      · rw [abs_of_neg h]
        ring
      · rw [abs_of_nonneg (not_lt.1 h), one_mul]
    unfold hdir
    rw [h1, ← hxs, sub_self]
  unfold houseMat hunit
  rw [hz]
  simp

theorem mat_inj {r c : ℕ} {A B : Matrix (Fin r) (Fin c) ℝ} {t u : List XR} (h : mat A t = mat B u) (i : Fin r) (j : Fin c) :
    A i j = B i j := by
  have := congrFun (congrFun (mtxOf_inj h).1 i) j
  simpa using this

theorem id_init (U : Matrix (Fin n) (Fin n) XR) (u : List XR) :
    mtxInit (mtxOf U u) (some entryFnIdentity) = ok (0, mat (1 : Matrix (Fin n) (Fin n) ℝ) u) := by
  rw [mtx_init_identity]
  unfold mat
  congr 3
  ext i j
  simp only [Matrix.of_apply, Matrix.map_apply, Matrix.one_apply, Fin.ext_iff]
  split_ifs <;> simp

/-- C118. The QR decomposition of an upper triangular matrix is the identity and the matrix itself. -/
theorem mtx_qrd_triangular (junk : ℕ → XR) (A : Matrix (Fin n) (Fin n) ℝ) (B C : Matrix (Fin n) (Fin n) XR) (t u w : List XR)
    (hn : 0 < n) (hsz : n < SIZE_MOD) (hA : ∀ i j, j < i → A i j = 0) :
    mtxQrd junk (mat A t) (mtxOf B w) (mtxOf C u) false = ok (0, mat (1 : Matrix (Fin n) (Fin n) ℝ) w, mat A u) := by
  unfold mtxQrd
  rw [if_neg (by simp; omega)]
  simp only [mat_rows, mat_cols]
  obtain ⟨U, hU⟩ := uninit_eq junk n n
  rw [hU, mtx_init_null]
  simp only [ok_bind]
  rw [id_init]
  simp only [ok_bind]
  rw [show mat A t = mtxOf (A.map XR.fin) t from rfl, mtx_copy_correct]
  simp only [ok_bind]
  rw [szSub_le (by omega)]
  have hloop := forN_sat (n := n - 1) (f := fun g s => qrdStep junk n n false g s) (s := (mtxOf U [], mtxOf U [],
    mtxOf (Matrix.of fun _ _ => lit 0) [], mtxOf U [], mat (1 : Matrix (Fin n) (Fin n) ℝ) [], mtxOf (A.map XR.fin) u))
    (fun _ st => ∃ M1 M2 M3 M4 : Matrix (Fin n) (Fin n) XR, st = (mtxOf M1 [], mtxOf M2 [], mtxOf M3 [], mtxOf M4 [],
      mat (1 : Matrix (Fin n) (Fin n) ℝ) [], mat A u)) ⟨_, _, _, _, rfl⟩ (by
    rintro g hg st ⟨M1, M2, M3, M4, rfl⟩
    obtain ⟨s, rfl⟩ : ∃ s, n = g + (s + 1) := ⟨n - g - 1, by omega⟩
    have hstep := qrdStep_eq junk g s A 1 M1 M2 M3 M4 [] [] [] [] [] u hsz
    simp only at hstep
    rw [houseMat_axis _ (fun i hi => hA _ _ (Fin.lt_def.2 (by
      have : i.val ≠ 0 := fun h => hi (Fin.ext h)
      change g + 0 < g + i.val
      omega))), augm_one, Matrix.one_mul, Matrix.one_mul] at hstep
    rw [hstep, sat_ok]
    exact ⟨_, _, _, _, rfl⟩)
  obtain ⟨st, hst, M1, M2, M3, M4, rfl⟩ := hloop
  rw [hst]
  simp only [ok_bind]
  rw [mtx_trans_real _ _ _ _ _ hn, Matrix.transpose_one]
  rfl

/-- C118. The Hessenberg decomposition of an upper Hessenberg matrix is the identity and the matrix itself. -/
theorem mtx_qrd_hess_fixed (junk : ℕ → XR) (A : Matrix (Fin n) (Fin n) ℝ) (B C : Matrix (Fin n) (Fin n) XR) (t u w : List XR)
    (hn : 0 < n) (hsz : 2 * n < SIZE_MOD) (hA : ∀ i j : Fin n, j.val + 1 < i.val → A i j = 0) :
    mtxQrd junk (mat A t) (mtxOf B w) (mtxOf C u) true = ok (0, mat (1 : Matrix (Fin n) (Fin n) ℝ) w, mat A u) := by
  unfold mtxQrd
  rw [if_neg (by simp; omega)]
  simp only [mat_rows, mat_cols]
  obtain ⟨U, hU⟩ := uninit_eq junk n n
  rw [hU, mtx_init_null]
  simp only [ok_bind]
  rw [id_init]
  simp only [ok_bind]
  rw [show mat A t = mtxOf (A.map XR.fin) t from rfl, mtx_copy_correct]
  simp only [ok_bind]
  rw [szSub_le (by omega)]
  have hloop := forN_sat (n := n - 1) (f := fun g s => qrdStep junk n n true g s) (s := (mtxOf U [], mtxOf U [],
    mtxOf (Matrix.of fun _ _ => lit 0) [], mtxOf U [], mat (1 : Matrix (Fin n) (Fin n) ℝ) [], mtxOf (A.map XR.fin) u))
    (fun _ st => ∃ M1 M2 M3 M4 : Matrix (Fin n) (Fin n) XR, st = (mtxOf M1 [], mtxOf M2 [], mtxOf M3 [], mtxOf M4 [],
      mat (1 : Matrix (Fin n) (Fin n) ℝ) [], mat A u)) ⟨_, _, _, _, rfl⟩ (by
    rintro g hg st ⟨M1, M2, M3, M4, rfl⟩
    obtain ⟨s, rfl⟩ : ∃ s, n = g + (1 + (s + 1)) := ⟨n - g - 2, by omega⟩
    have hstep := qrdStep_hess_eq junk g s A 1 M1 M2 M3 M4 [] [] [] [] [] u hsz
    simp only at hstep
    rw [houseMat_axis _ (fun i hi => hA _ _ (by
      have : i.val ≠ 0 := fun h => hi (Fin.ext h)
      change g + 0 + 1 < g + (1 + i.val)
      omega)), augm_one, augm_one, Matrix.one_mul, Matrix.one_mul, Matrix.mul_one] at hstep
    rw [hstep, sat_ok]
    exact ⟨_, _, _, _, rfl⟩)
  obtain ⟨st, hst, M1, M2, M3, M4, rfl⟩ := hloop
  rw [hst]
  simp only [ok_bind]
  rw [mtx_trans_real _ _ _ _ _ hn, Matrix.transpose_one]
  rfl

/-- C118. The QR iteration leaves an upper triangular matrix as it is, for every number of iterations. -/
theorem mtx_qrd_iter_triangular (junk : ℕ → XR) (A : Matrix (Fin n) (Fin n) ℝ) (B : Matrix (Fin n) (Fin n) XR) (t u : List XR)
    (iter : ℕ) (hn : 0 < n) (hsz : n < SIZE_MOD) (hA : ∀ i j, j < i → A i j = 0) :
    mtxQrdIter junk (mat A t) (mtxOf B u) iter = ok (0, mat A u) := by
  unfold mtxQrdIter
  rw [if_neg (by simp; omega), show mat A t = mtxOf (A.map XR.fin) t from rfl, mtx_copy_correct, ok_bind]
  simp only [mtxOf_rows]
  rw [if_neg (by simp)]
  obtain ⟨U, hU⟩ := uninit_eq junk n n
  rw [hU]
  have hloop : (forN iter (fun _ (s : Mtx XR × Mtx XR × Mtx XR) => do
        let x ← mtxQrd junk s.2.2 s.1 s.2.1 false
        let y ← mtxMult x.2.2 x.2.1 s.2.2
        return (x.2.1, x.2.2, y.2)) (mtxOf U [], mtxOf U [], mtxOf (A.map XR.fin) u)).sat fun s => s.2.2 = mat A u := by
    refine (forN_sat (fun _ s => (∃ B : Matrix (Fin n) (Fin n) XR, s.1 = mtxOf B []) ∧
      (∃ B : Matrix (Fin n) (Fin n) XR, s.2.1 = mtxOf B []) ∧ s.2.2 = mat A u) ?_ ?_).mono ?_
    · exact ⟨⟨U, rfl⟩, ⟨U, rfl⟩, rfl⟩
    · rintro k _ ⟨q, r, mo⟩ ⟨⟨B1, rfl⟩, ⟨B2, rfl⟩, hM⟩
      dsimp only at hM
      subst hM
      dsimp only
      rw [mtx_qrd_triangular junk A B1 B2 u [] [] hn hsz hA, ok_bind]
      dsimp only
      rw [show mat A u = mtxOf (A.map XR.fin) u from rfl, mtx_mult_correct, ok_bind]
      dsimp only
      rw [pure_eq, sat_ok, Matrix.mul_one]
      exact ⟨⟨_, rfl⟩, ⟨_, rfl⟩, rfl⟩
    · rintro s ⟨_, _, h⟩
      exact h
  obtain ⟨s, hs, hM⟩ := hloop
  rw [hs, ok_bind, hM]
  rfl

/-- The symmetric branch of `zsl_mtx_eigenvalues` stores the diagonal of the matrix the QR iteration leaves. -/
theorem eig_sym_run (fuel : ℕ) (junk : ℕ → XR) (A N : Matrix (Fin n) (Fin n) ℝ) (x : Fin n → XR) (t u : List XR) (iter : ℕ)
    (hn : 0 < n) (rc0 : Int) (hb : mtxBalance fuel junk (mat A t) (Mtx.uninit junk n n) = ok (rc0, mat N []))
    (hsym : ∀ i j, |A i j - A j i| < 1 / 1000000) (U : Matrix (Fin n) (Fin n) XR) (hU : Mtx.uninit junk n n = mtxOf U [])
    (Q H M : Matrix (Fin n) (Fin n) ℝ) (hqr : mtxQrd junk (mat N []) (mtxOf U []) (mtxOf U []) true = ok (0, mat Q [], mat H []))
    (hM : mtxQrdIter junk (mat H []) (mtxOf (Q.map XR.fin) []) iter = ok (0, mat M [])) :
    mtxEigenvalues fuel junk (mat A t) (vecOf x u) iter = ok (0, vec (fun i => M i i) u) := by
  unfold mtxEigenvalues
  rw [if_neg (by simp; omega)]
  simp only [mat_rows]
  rw [hb, ok_bind, hU]
  dsimp only
  rw [hqr, ok_bind]
  dsimp only
  rw [show mat Q [] = mtxOf (Q.map XR.fin) [] from rfl, hM, ok_bind]
  dsimp only
  rw [vecInit_vec, ok_bind]
  dsimp only
  obtain ⟨b, hb1, hb2⟩ := mtx_is_sym_correct (junk 0) A t
  rw [hb1, hb2.2 hsym, ok_bind, if_pos rfl]
  have hloop : (forN n (fun g (s : XR × List XR) => do
      let y ← mtxGet (mat M []) g g s.1
      let vd ← wr s.2 g y.2
      return (y.2, vd)) (junk 0, (vec (0 : Fin n → ℝ) u).data)).sat fun s => s.2 = arr (fun i => M i i) u := by
    refine (forN_sat (fun g (s : XR × List XR) => s.2 = arr (fun i : Fin n => if i.val < g then M i i else 0) u) ?_ ?_).mono ?_
    · rfl
    · rintro g hg ⟨y, l⟩ hl
      dsimp only at hl ⊢
      subst hl
      obtain ⟨gg, rfl⟩ : ∃ gg : Fin n, gg.val = g := ⟨⟨g, hg⟩, rfl⟩
      have hget := mtx_get_correct (M.map XR.fin) [] y gg gg
      rw [show mat M [] = mtxOf (M.map XR.fin) [] from rfl, hget, ok_bind]
      dsimp only
      rw [Matrix.map_apply, arr_wr, ok_bind, pure_eq, sat_ok]
      dsimp only
      congr 1
      funext i
      rw [Function.update_apply]
      by_cases h : i = gg
      · rw [if_pos h, if_pos (by rw [h]; omega), h]
      · rw [if_neg h]
        rw [Fin.ext_iff] at h
        exact if_congr (by omega) rfl rfl
    · rintro ⟨y, l⟩ hl
      dsimp only at hl ⊢
      rw [hl]
      congr 1
      funext i
      rw [if_pos i.2]
  obtain ⟨s, hs, hs2⟩ := hloop
  rw [hs, ok_bind, hs2]
  rfl

/-- The matrices behind `eig_sym_run` exist. -/
theorem eig_sym (fuel : ℕ) (junk : ℕ → XR) (A N : Matrix (Fin n) (Fin n) ℝ) (x : Fin n → XR) (t u : List XR) (iter : ℕ)
    (hn : 0 < n) (hsz : 2 * n < SIZE_MOD) (rc0 : Int)
    (hb : mtxBalance fuel junk (mat A t) (Mtx.uninit junk n n) = ok (rc0, mat N [])) (hsym : ∀ i j, |A i j - A j i| < 1 / 1000000) :
    ∃ (B : Matrix (Fin n) (Fin n) XR) (Q H M : Matrix (Fin n) (Fin n) ℝ),
      mtxQrd junk (mat N []) (mtxOf B []) (mtxOf B []) true = ok (0, mat Q [], mat H []) ∧
      mtxQrdIter junk (mat H []) (mat Q []) iter = ok (0, mat M []) ∧
      mtxEigenvalues fuel junk (mat A t) (vecOf x u) iter = ok (0, vec (fun i => M i i) u) := by
  obtain ⟨U, hU⟩ := uninit_eq junk n n
  obtain ⟨Q, H, hqr, -⟩ := mtx_qrd_hess_correct junk N U U [] [] [] hn hsz
  obtain ⟨M, hM, -⟩ := mtx_qrd_iter_charpoly junk H (Q.map XR.fin) [] [] iter hn (by omega)
  exact ⟨U, Q, H, M, hqr, hM, eig_sym_run fuel junk A N x t u iter hn rc0 hb hsym U hU Q H M hqr hM⟩

/-- The scan of a matrix whose subdiagonal is small stores the whole diagonal but the last entry. -/
theorem eigScan_small (M : Matrix (Fin n) (Fin n) ℝ) (hM : ∀ i j : Fin n, i.val = j.val + 1 → |M i j| < 1 / 1000000) (u : List XR) (fuel g : ℕ)
    (hg : g ≤ n - 1) (hf : n - 1 - g ≤ fuel) (sd dg : XR) :
    ∃ sd' dg', eigScan fuel (mat M []) (n - 1) g sd dg (arr (fun i : Fin n => if i.val < g then M i i else 0) u) g =
      ok (sd', dg', arr (fun i : Fin n => if i.val < n - 1 then M i i else 0) u, n - 1) := by
  induction fuel generalizing g sd dg with
  | zero =>
    have : g = n - 1 := by omega
    subst this
    unfold eigScan
    rw [if_neg (by omega)]
    exact ⟨_, _, rfl⟩
  | succ fuel ih =>
    unfold eigScan
    by_cases hlt : g < n - 1
    · rw [if_pos hlt]
      dsimp only
      have h1 := mtx_get_correct (M.map XR.fin) [] sd ⟨g + 1, by omega⟩ ⟨g, by omega⟩
      have h2 := mtx_get_correct (M.map XR.fin) [] dg ⟨g, by omega⟩ ⟨g, by omega⟩
      dsimp only at h1 h2
      rw [show mat M [] = mtxOf (M.map XR.fin) [] from rfl, h1, ok_bind]
      dsimp only
      have hm := abs_lt.1 (hM ⟨g + 1, by omega⟩ ⟨g, by omega⟩ rfl)
      rw [Matrix.map_apply, if_neg (by rw [lit_micro]; simp only [XR.fin_neg, Bool.or_eq_true, not_or, XR.fin_ge, XR.fin_le, not_le]; norm_num at hm ⊢; exact ⟨hm.2, hm.1⟩), h2, ok_bind]
      dsimp only
      have hw := arr_wr (fun i : Fin n => if i.val < g then M i i else 0) u ⟨g, by omega⟩ (M ⟨g, by omega⟩ ⟨g, by omega⟩)
      dsimp only at hw
      rw [Matrix.map_apply, hw, ok_bind]
      obtain ⟨sd', dg', h⟩ := ih (g + 1) (by omega) (by omega) (XR.fin (M ⟨g + 1, by omega⟩ ⟨g, by omega⟩)) (XR.fin (M ⟨g, by omega⟩ ⟨g, by omega⟩))
      refine ⟨sd', dg', ?_⟩
      rw [← h]
      congr 2
      funext i
      rw [Function.update_apply]
      by_cases h : i.val = g
      · rw [if_pos (Fin.ext h), if_pos (by omega)]
        congr 1 <;> exact (Fin.ext h).symm
      · rw [if_neg (fun hh => h (by rw [hh]))]
        exact if_congr (by omega) rfl rfl
    · have : g = n - 1 := by omega
      subst this
      rw [if_neg hlt]
      exact ⟨_, _, rfl⟩

/-- What the asymmetric branch of `zsl_mtx_eigenvalues` counts as zero at the end. -/
noncomputable def tiny (a : ℝ) : Bool := open Classical in decide (0 ≤ a ∧ a < 1 / 1000000)

theorem zteZero_fin (a : ℝ) : zteZero (XR.fin a) = tiny a := by
  unfold zteZero tiny
  rw [Bool.eq_iff_iff]
  simp only [XR.lit_eq, Bool.or_eq_true, Bool.and_eq_true, decide_eq_true_eq]
  constructor
  · rintro (⟨h1, h2⟩ | ⟨h1, h2⟩)
    · rw [XR.fin_ge] at h1
      rw [XR.fin_lt] at h2
      norm_num at h1 h2
      exact ⟨h1, by linarith⟩
    · rw [XR.fin_le] at h1
      rw [XR.fin_gt] at h2
      norm_num at h1 h2
      linarith
  · rintro ⟨h1, h2⟩
    refine Or.inl ⟨?_, ?_⟩
    · rw [XR.fin_ge]
      norm_num
      exact h1
    · rw [XR.fin_lt]
      norm_num
      linarith

/-- The asymmetric branch, for a matrix the QR iteration makes (or leaves) upper triangular. -/
theorem eig_asym (fuel : ℕ) (junk : ℕ → XR) (A N H M Q : Matrix (Fin n) (Fin n) ℝ) (x : Fin n → XR) (t u : List XR) (iter : ℕ)
    (hn : 0 < n) (rc0 : Int) (hb : mtxBalance fuel junk (mat A t) (Mtx.uninit junk n n) = ok (rc0, mat N []))
    (hqr : mtxQrd junk (mat N []) (Mtx.uninit junk n n) (Mtx.uninit junk n n) true = ok (0, mat Q [], mat H []))
    (hit : mtxQrdIter junk (mat H []) (mat Q []) iter = ok (0, mat M []))
    (hM : ∀ i j : Fin n, i.val = j.val + 1 → |M i j| < 1 / 1000000) (hsym : ¬ ∀ i j, |A i j - A j i| < 1 / 1000000) :
    mtxEigenvalues fuel junk (mat A t) (vecOf x u) iter = ok (0, ⟨n, ((List.ofFn fun i => M i i).filter (fun a => !tiny a) ++
      List.replicate ((List.ofFn fun i => M i i).countP tiny) 0).map XR.fin ++ u⟩) := by
  have hn2 : 2 ≤ n := by
    by_contra h
    have : n = 1 := by omega
    subst this
    refine hsym fun i j => ?_
    rw [Subsingleton.elim i j, sub_self, abs_zero]
    norm_num
  have hsz : n < SIZE_MOD ∨ SIZE_MOD ≤ n := Nat.lt_or_ge _ _
  unfold mtxEigenvalues
  rw [if_neg (by simp; omega)]
  simp only [mat_rows]
  rw [hb, ok_bind]
  dsimp only
  rw [hqr, ok_bind]
  dsimp only
  rw [hit, ok_bind]
  dsimp only
  rw [vecInit_vec, ok_bind]
  dsimp only
  obtain ⟨b, hb1, hb2⟩ := mtx_is_sym_correct (junk 0) A t
  have hbf : b = false := by
    cases b
    · rfl
    · exact absurd (hb2.1 rfl) hsym
  rw [hb1, hbf, ok_bind, if_neg (by simp), szSub_le (by omega), szSub_le (by omega)]
  obtain ⟨sd', dg', hscan⟩ := eigScan_small M hM u n 0 (by omega) (by omega) (junk 0) (junk 0)
  rw [show (vec (0 : Fin n → ℝ) u).data = arr (fun i : Fin n => if i.val < 0 then M i i else 0) u from rfl, hscan, ok_bind]
  dsimp only
  have h1 := mtx_get_correct (M.map XR.fin) [] sd' ⟨n - 1, by omega⟩ ⟨n - 2, by omega⟩
  have h2 := mtx_get_correct (M.map XR.fin) [] dg' ⟨n - 1, by omega⟩ ⟨n - 1, by omega⟩
  dsimp only at h1 h2
  rw [show mat M [] = mtxOf (M.map XR.fin) [] from rfl, h1, ok_bind]
  dsimp only
  have hm := abs_lt.1 (hM ⟨n - 1, by omega⟩ ⟨n - 2, by omega⟩ (by dsimp only; omega))
  rw [Matrix.map_apply,
    if_neg (by rw [lit_micro]; simp only [XR.fin_neg, Bool.or_eq_true, not_or, XR.fin_ge, XR.fin_le, not_le]; norm_num at hm ⊢; exact ⟨hm.2, hm.1⟩), h2, ok_bind]
  dsimp only
  have hw := arr_wr (fun i : Fin n => if i.val < n - 1 then M i i else 0) u ⟨n - 1, by omega⟩ (M ⟨n - 1, by omega⟩ ⟨n - 1, by omega⟩)
  dsimp only at hw
  rw [Matrix.map_apply, hw, ok_bind, pure_eq, ok_bind]
  dsimp only
  refine Eq.trans (if_neg (by omega)) ?_
  have hall : Function.update (fun i : Fin n => if i.val < n - 1 then M i i else 0) ⟨n - 1, by omega⟩
      (M ⟨n - 1, by omega⟩ ⟨n - 1, by omega⟩) = fun i => M i i := by
    funext i
    rw [Function.update_apply]
    by_cases h : i.val = n - 1
    · rw [if_pos (Fin.ext h)]
      congr 1 <;> exact (Fin.ext h).symm
    · rw [if_neg (fun hh => h (by rw [hh])), if_pos (by omega)]
  rw [hall, show n - 1 + 1 = n by omega]
  have hz := vec_zte_correct (vec (fun i => M i i) u) (vec_wf _ _)
  rw [vec_vals, vec_data, vec_sz] at hz
  rw [show (⟨n, arr (fun i => M i i) u⟩ : Vec XR) = vec (fun i => M i i) u from rfl, hz, ok_bind]
  dsimp only
  rw [pure_eq]
  congr 3
  have hl : (List.ofFn fun i => XR.fin (M i i)) = (List.ofFn fun i => M i i).map XR.fin := by
    rw [List.map_ofFn]
    rfl
  have hd : (arr (fun i => M i i) u).drop n = u := by
    unfold arr
    rw [List.drop_left' (by simp)]
  rw [hd, hl, List.filter_map, List.countP_map, List.map_append, List.map_replicate, XR.lit_eq]
  have e1 : ((fun a => !zteZero a) ∘ XR.fin) = fun a => !tiny a := by
    funext a
    simp only [Function.comp_apply, zteZero_fin]
  have e2 : ((zteZero : XR → Bool) ∘ XR.fin) = tiny := by
    funext a
    exact zteZero_fin a
  rw [e1, e2]
  norm_num

/-- C118. Whenever `zsl_mtx_eigenvalues` returns for an upper triangular matrix, it returns 0 and the values are exactly the diagonal
entries, whatever the iteration count. If the matrix passes the symmetry test they are in the order of the diagonal; otherwise the
entries from 0 up to 1e-6 are replaced by zero and moved to the end. -/
theorem mtx_eigenvalues_triangular (fuel : ℕ) (junk : ℕ → XR) (A : Matrix (Fin n) (Fin n) ℝ) (x : Fin n → XR) (t u : List XR)
    (iter : ℕ) (hn : 0 < n) (hsz : 2 * n < SIZE_MOD) (hA : ∀ i j, j < i → A i j = 0) (rc : Int) (v' : Vec XR)
    (h : mtxEigenvalues fuel junk (mat A t) (vecOf x u) iter = ok (rc, v')) :
    rc = 0 ∧ ((∀ i j, |A i j - A j i| < 1 / 1000000) → v' = vec (fun i => A i i) u) ∧
      ((¬ ∀ i j, |A i j - A j i| < 1 / 1000000) → v' = ⟨n, ((List.ofFn fun i => A i i).filter (fun a => !tiny a) ++
        List.replicate ((List.ofFn fun i => A i i).countP tiny) 0).map XR.fin ++ u⟩) := by
  obtain ⟨U, hU⟩ := uninit_eq junk n n
  cases hb : mtxBalance fuel junk (mat A t) (Mtx.uninit junk n n) with
  | ub =>
    unfold mtxEigenvalues at h
    rw [if_neg (by simp; omega)] at h
    simp only [mat_rows] at h
    rw [hb] at h
    cases h
  | ok bal =>
    obtain ⟨rc0, mb⟩ := bal
    have hb' := hb
    rw [hU] at hb'
    obtain ⟨_, d, hd, rfl⟩ := mtx_balance_correct fuel junk A U t [] rc0 mb hb'
    set N : Matrix (Fin n) (Fin n) ℝ := Matrix.of fun i j => A i j * d j / d i with hN
    have hNt : ∀ i j, j < i → N i j = 0 := by
      intro i j hij
      simp [hN, hA i j hij]
    have hNd : ∀ i, N i i = A i i := by
      intro i
      simp only [hN, Matrix.of_apply]
      rw [mul_div_assoc, div_self (hd i).ne', mul_one]
    have hq := mtx_qrd_hess_fixed junk N U U [] [] [] hn hsz fun i j hij => hNt i j (Fin.lt_def.2 (by omega))
    have hit := mtx_qrd_iter_triangular junk N ((1 : Matrix (Fin n) (Fin n) ℝ).map XR.fin) [] [] iter hn (by omega) hNt
    by_cases hsym : ∀ i j, |A i j - A j i| < 1 / 1000000
    · obtain ⟨B, Q, H, M, h1, h2, h3⟩ := eig_sym fuel junk A N x t u iter hn hsz rc0 hb hsym
      rw [mtx_qrd_hess_fixed junk N B B [] [] [] hn hsz fun i j hij => hNt i j (Fin.lt_def.2 (by omega))] at h1
      simp only [ok.injEq, Prod.mk.injEq, true_and] at h1
      rw [← h1.1, ← h1.2] at h2
      rw [show mat (1 : Matrix (Fin n) (Fin n) ℝ) [] = mtxOf ((1 : Matrix (Fin n) (Fin n) ℝ).map XR.fin) [] from rfl, hit] at h2
      simp only [ok.injEq, Prod.mk.injEq, true_and] at h2
      rw [h3] at h
      cases h
      refine ⟨rfl, fun _ => ?_, fun hh => absurd hsym hh⟩
      congr 1
      funext i
      rw [← hNd i]
      exact mat_inj h2.symm i i
    · rw [← hU] at hq
      rw [eig_asym fuel junk A N N N 1 x t u iter hn rc0 hb hq hit
        (fun i j hij => by rw [hNt i j (Fin.lt_def.2 (by omega)), abs_zero]; norm_num) hsym] at h
      cases h
      refine ⟨rfl, fun hh => absurd hh hsym, fun _ => ?_⟩
      simp only [hNd]

/-- C118. If the uninitialised locals of the balancing step hold zero, the eigenvalue function returns for every real matrix. Missing: locals
that do not hold zero; then it may not return (`mtx_balance_hangs_init`). -/
theorem mtx_eigenvalues_returns_partial (junk : ℕ → XR) (A : Matrix (Fin n) (Fin n) ℝ) (x : Fin n → XR) (t u : List XR) (iter : ℕ)
    (hn : 0 < n) (hsz : n < SIZE_MOD) (h0 : junk 0 = XR.fin 0) (h1 : junk 1 = XR.fin 0) :
    ∃ F, ∀ fuel, F ≤ fuel → ∃ rc v', mtxEigenvalues fuel junk (mat A t) (vecOf x u) iter = ok (rc, v') := by
  obtain ⟨U, hU⟩ := uninit_eq junk n n
  obtain ⟨k, F, hF⟩ := mtx_balance_terminates_partial junk A U t [] h0 h1
  refine ⟨F, fun fuel hf => ?_⟩
  have hb : mtxBalance fuel junk (mat A t) (Mtx.uninit junk (mat A t).rows (mat A t).rows) =
      ok (0, mat (Matrix.of fun i j => A i j * (2 : ℝ) ^ (k j - k i)) []) := by
    rw [mat_rows, hU]
    exact hF fuel hf
  obtain ⟨⟨rc, v'⟩, h, -⟩ := mtx_eigenvalues_safe fuel junk (mat A t) (vecOf x u) iter (mtxOf_wf _ _) (by simp [vecOf, Vec.WF, arrOf])
    (by simp [vecOf, arrOf]) (by simpa using hn) (by simpa using hsz) _ hb
  exact ⟨rc, v', h⟩

/-- C118. The eigenvalues of a diagonal matrix are its diagonal entries, in order. -/
theorem mtx_eigenvalues_diagonal (junk : ℕ → XR) (d : Fin n → ℝ) (x : Fin n → XR) (t u : List XR) (iter : ℕ)
    (hn : 0 < n) (hsz : 2 * n < SIZE_MOD) (h0 : junk 0 = XR.fin 0) (h1 : junk 1 = XR.fin 0) :
    ∃ F, ∀ fuel, F ≤ fuel → mtxEigenvalues fuel junk (mat (Matrix.diagonal d) t) (vecOf x u) iter = ok (0, vec d u) := by
  obtain ⟨F, hF⟩ := mtx_eigenvalues_returns_partial junk (Matrix.diagonal d) x t u iter hn (by omega) h0 h1
  refine ⟨F, fun fuel hf => ?_⟩
  obtain ⟨rc, v', h⟩ := hF fuel hf
  obtain ⟨rfl, h2, -⟩ := mtx_eigenvalues_triangular fuel junk (Matrix.diagonal d) x t u iter hn hsz
    (fun i j hij => Matrix.diagonal_apply_ne _ (ne_of_gt hij)) rc v' h
  rw [h, h2]
  · simp
  · intro i j
    by_cases hij : i = j
    · subst hij
      simp
    · rw [Matrix.diagonal_apply_ne _ hij, Matrix.diagonal_apply_ne _ (Ne.symm hij)]
      norm_num

/-- Non-vacuity: an upper triangular matrix with a zero on the diagonal; the zero moves to the end. -/
example (junk : ℕ → XR) (h0 : junk 0 = XR.fin 0) (h1 : junk 1 = XR.fin 0) : ∃ fuel,
    mtxEigenvalues fuel junk (mat !![0, 3; 0, 2] []) (vecOf (fun _ : Fin 2 => XR.nan) []) 7 = ok (0, ⟨2, [XR.fin 2, XR.fin 0]⟩) := by
  obtain ⟨F, hF⟩ := mtx_eigenvalues_returns_partial junk !![0, 3; 0, 2] (fun _ => XR.nan) [] [] 7 (by norm_num)
    (by rw [SIZE_MOD_eq]; norm_num) h0 h1
  obtain ⟨rc, v', h⟩ := hF F le_rfl
  obtain ⟨rfl, -, h3⟩ := mtx_eigenvalues_triangular F junk !![0, 3; 0, 2] (fun _ => XR.nan) [] [] 7 (by norm_num)
    (by rw [SIZE_MOD_eq]; norm_num) (by
      intro i j hij
      fin_cases i <;> fin_cases j <;> first | rfl | (revert hij; decide)) rc v' h
  refine ⟨F, ?_⟩
  rw [h, h3]
  · simp [tiny, List.ofFn_succ, List.filter, List.countP, List.countP.go]
    norm_num
  · intro hh
    have := hh 0 1
    norm_num at this

end Verif
