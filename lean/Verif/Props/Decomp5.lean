import Verif.Props.Decomp3
import Verif.Props.Decomp4
import Verif.Props.Matrices6

/-!
# Termination of balancing (C81) and the eigenvalues of symmetric matrices (C82)
-/

set_option linter.unusedSectionVars false

namespace Verif

open Out

variable {n : ℕ}

/-! ## C81: balancing terminates -/

/-- One pass over a row of a symmetric matrix changes nothing when the sums start at zero. -/
theorem balanceRow_symm (fuel : ℕ) (A : Matrix (Fin n) (Fin n) ℝ) (hA : A.transpose = A) (t : List XR) (i : ℕ) (hi : i < n)
    (done : Bool) :
    balanceRow fuel n i (done, XR.fin 0, XR.fin 0, (mat A t).data) = ok (done, XR.fin 0, XR.fin 0, (mat A t).data) := by
  have hsym : ∀ a b, A a b = A b a := fun a b => congrFun (congrFun hA b) a
  unfold balanceRow
  dsimp only
  have hdata : (mat A t).data = mkD n n (ext (A.map XR.fin)) t := by
    unfold mat
    rw [mtxOf_eq, mkM_data]
  rw [hdata]
  have hsum : (forN n (fun j (s : XR × XR) => do
      let a ← rd (mkD n n (ext (A.map XR.fin)) t) (i * n + j)
      let b ← rd (mkD n n (ext (A.map XR.fin)) t) (j * n + i)
      return (s.1 + CReal.abs a, s.2 + CReal.abs b)) (XR.fin 0, XR.fin 0)).sat fun s =>
        ∃ x : ℝ, 0 ≤ x ∧ s = (XR.fin x, XR.fin x) := by
    refine forN_sat (fun _ s => ∃ x : ℝ, 0 ≤ x ∧ s = (XR.fin x, XR.fin x)) ⟨0, le_rfl, rfl⟩ ?_
    rintro j hj s ⟨x, hx, rfl⟩
    rw [mkD_rd _ _ hi hj, ok_bind, mkD_rd _ _ hj hi, ok_bind, ext_lt _ hi hj, ext_lt _ hj hi, pure_eq, sat_ok]
    refine ⟨x + |A ⟨i, hi⟩ ⟨j, hj⟩|, by positivity, ?_⟩
    simp only [Matrix.map_apply, XR.fin_abs, XR.fin_add]
    rw [hsym ⟨j, hj⟩ ⟨i, hi⟩]
  obtain ⟨s, hs, x, hx, rfl⟩ := hsum
  rw [hs, ok_bind]
  dsimp only
  by_cases hx0 : x = 0
  · subst hx0
    rw [if_neg (by simp)]
    simp
  · have hpos : 0 < x := lt_of_le_of_ne hx (Ne.symm hx0)
    rw [if_pos (by simpa using hx0)]
    have hup : balanceUp fuel (XR.fin x / lit 2) (XR.fin x) (lit 1) = ok (XR.fin x, XR.fin 1) := by
      unfold balanceUp
      rw [XR.lit_eq, XR.fin_div (by norm_num), if_neg (by simp; linarith)]
      simp
    rw [hup, ok_bind]
    dsimp only
    have hdown : balanceDown fuel (XR.fin x * lit 2) (XR.fin x) (XR.fin 1) = ok (XR.fin x, XR.fin 1) := by
      unfold balanceDown
      rw [XR.lit_eq, XR.fin_mul, if_neg (by simp; linarith)]
    rw [hdown, ok_bind]
    dsimp only
    rw [if_neg (by
      rw [XR.fin_add, XR.fin_div one_ne_zero, XR.lit_eq, XR.fin_mul]
      simp
      norm_num
      linarith)]
    simp

/-- C81. For a symmetric matrix, and if the uninitialised locals of `zsl_mtx_balance` happen to hold zero, balancing terminates after one
pass and stores a copy of the input. The full claim (for every matrix, whatever the locals hold) is false: `mtx_balance_hangs_init`. -/
theorem mtx_balance_symm_partial (fuel : ℕ) (junk : ℕ → XR) (A : Matrix (Fin n) (Fin n) ℝ) (B : Matrix (Fin n) (Fin n) XR)
    (t u : List XR) (hA : A.transpose = A) (h0 : junk 0 = XR.fin 0) (h1 : junk 1 = XR.fin 0) (hfuel : 0 < fuel) :
    mtxBalance fuel junk (mat A t) (mtxOf B u) = ok (0, mat A u) := by
  unfold mtxBalance
  rw [if_neg (by simp), if_neg (by simp), if_neg (by simp), show mat A t = mtxOf (A.map XR.fin) t from rfl,
    mtx_copy_correct, ok_bind]
  dsimp only
  rw [if_neg (by simp), mtxOf_rows, h0, h1]
  obtain ⟨fuel, rfl⟩ : ∃ f, fuel = f + 1 := ⟨fuel - 1, by omega⟩
  unfold balanceLoop
  rw [forN_eq (fun _ => (true, XR.fin 0, XR.fin 0, (mat A u).data))]
  · rfl
  · rfl
  · intro i hi
    exact balanceRow_symm _ A hA u i hi true

/-- C81 fails: with other contents of the uninitialised locals `zsl_mtx_balance` never returns, even for the symmetric matrix (1). -/
theorem mtx_balance_hangs_init : ∃ junk : ℕ → XR, ∀ fuel, mtxBalance fuel junk (mat (1 : Matrix (Fin 1) (Fin 1) ℝ) [])
    (mat (0 : Matrix (Fin 1) (Fin 1) ℝ) []) = ub := mtx_balance_hangs

theorem arr_wr (x : Fin n → ℝ) (t : List XR) (i : Fin n) (y : ℝ) :
    wr (arr x t) i (XR.fin y) = ok (arr (Function.update x i y) t) := by
  unfold arr
  rw [wr_lt _ (by simp; omega)]
  congr 1
  rw [List.set_append_left _ _ (by simp)]
  congr 1
  apply List.ext_getElem
  · simp
  · intro k h1 h2
    rw [List.getElem_set]
    simp only [List.getElem_ofFn, Function.update_apply]
    by_cases h : i.val = k
    · rw [if_pos h, if_pos (Fin.ext h.symm)]
    · rw [if_neg h, if_neg (fun hh => h (by rw [← hh]))]

/-! ## C82: eigenvalues of symmetric matrices -/

/-- C82. Whenever `zsl_mtx_eigenvalues` returns for a symmetric matrix, it returns 0, and for every iteration count the values it stores
are the diagonal of a matrix similar to the input; in particular they add up to the trace. -/
theorem mtx_eigenvalues_symm (fuel : ℕ) (junk : ℕ → XR) (A : Matrix (Fin n) (Fin n) ℝ) (x : Fin n → XR) (t u : List XR) (iter : ℕ)
    (hn : 0 < n) (hsz : 2 * n < SIZE_MOD) (hA : A.transpose = A) (rc : Int) (v' : Vec XR)
    (h : mtxEigenvalues fuel junk (mat A t) (vecOf x u) iter = ok (rc, v')) :
    rc = 0 ∧ ∃ M : Matrix (Fin n) (Fin n) ℝ, v' = vec (fun i => M i i) u ∧ M.charpoly = A.charpoly ∧
      ∑ i, M i i = ∑ i, A i i := by
  unfold mtxEigenvalues at h
  rw [if_neg (by simp; omega)] at h
  simp only [mat_rows] at h
  obtain ⟨U, hU⟩ := uninit_eq junk n n
  rw [hU] at h
  cases hb : mtxBalance fuel junk (mat A t) (mtxOf U []) with
  | ub =>
    rw [hb] at h
    cases h
  | ok bal =>
    obtain ⟨rc0, mb⟩ := bal
    obtain ⟨N, rfl, hN1, hN2, hN3⟩ := mtx_balance_charpoly fuel junk A U t [] rc0 mb hb
    rw [hb, ok_bind] at h
    dsimp only at h
    obtain ⟨Q, R, hqr, hQ, hQ', _, hQR⟩ := mtx_qrd_hess_correct junk N U U [] [] [] hn hsz
    rw [hqr, ok_bind] at h
    dsimp only at h
    obtain ⟨M, hM, hM1, hM2, hM3⟩ := mtx_qrd_iter_charpoly junk R (Q.map XR.fin) [] [] iter hn (by omega)
    rw [show mat Q [] = mtxOf (Q.map XR.fin) [] from rfl, hM, ok_bind] at h
    dsimp only at h
    rw [vecInit_vec, ok_bind] at h
    dsimp only at h
    obtain ⟨b, hb1, hb2⟩ := mtx_is_sym_correct (junk 0) A t
    have hbt : b = true := hb2.2 fun i j => by
      rw [show A i j = A j i from congrFun (congrFun hA j) i, sub_self, abs_zero]
      norm_num
    rw [hb1, hbt, ok_bind, if_pos rfl] at h
    have hloop : (forN n (fun g (s : XR × List XR) => do
        let y ← mtxGet (mat M []) g g s.1
        let vd ← wr s.2 g y.2
        return (y.2, vd)) (junk 0, (vec (0 : Fin n → ℝ) u).data)).sat fun s => s.2 = arr (fun i => M i i) u := by
      refine (forN_sat (fun g (s : XR × List XR) => s.2 = arr (fun i : Fin n => if i.val < g then M i i else 0) u) ?_ ?_).mono ?_
      · rfl
      · rintro g hg ⟨y, l⟩ hl
        dsimp only at hl ⊢
        subst hl
        obtain ⟨gg, rfl⟩ : ∃ gg : Fin n, gg.val = g := ⟨⟨g, hg⟩, rfl⟩
        have hget := mtx_get_correct (M.map XR.fin) [] y gg gg
        rw [show mat M [] = mtxOf (M.map XR.fin) [] from rfl, hget, ok_bind]
        dsimp only
        rw [Matrix.map_apply, arr_wr, ok_bind, pure_eq, sat_ok]
        dsimp only
        congr 1
        funext i
        rw [Function.update_apply]
        by_cases h : i = gg
        · rw [if_pos h, if_pos (by rw [h]; omega), h]
        · rw [if_neg h]
          rw [Fin.ext_iff] at h
          exact if_congr (by omega) rfl rfl
      · rintro ⟨y, l⟩ hl
        dsimp only at hl ⊢
        rw [hl]
        congr 1
        funext i
        rw [if_pos i.2]
    obtain ⟨s, hs, hs2⟩ := hloop
    rw [hs, ok_bind] at h
    cases h
    refine ⟨rfl, M, ?_, ?_, ?_⟩
    · rw [hs2]
      rfl
    · rw [hM1, ← hN1, ← hQR]
      have hi : Q⁻¹ = Q.transpose := Matrix.inv_eq_right_inv hQ
      have := Matrix.charpoly_units_conj ⟨Q, Q.transpose, hQ, hQ'⟩ R
      simp only at this
      rw [← hi]
      exact this.symm
    · have h1 : M.trace = A.trace := by
        rw [hM3, ← hN3, ← hQR, Matrix.trace_mul_comm, ← Matrix.mul_assoc, hQ', Matrix.one_mul]
      exact h1

/-- C82. If in addition the uninitialised locals of the balancing step hold zero, the call does return. -/
theorem mtx_eigenvalues_symm_returns_partial (fuel : ℕ) (junk : ℕ → XR) (A : Matrix (Fin n) (Fin n) ℝ) (x : Fin n → XR)
    (t u : List XR) (iter : ℕ) (hn : 0 < n) (hsz : 2 * n < SIZE_MOD) (hA : A.transpose = A) (h0 : junk 0 = XR.fin 0)
    (h1 : junk 1 = XR.fin 0) (hfuel : 0 < fuel) :
    ∃ v', mtxEigenvalues fuel junk (mat A t) (vecOf x u) iter = ok (0, v') := by
  suffices h : ∃ rv, mtxEigenvalues fuel junk (mat A t) (vecOf x u) iter = ok rv by
    obtain ⟨⟨rc, v'⟩, h⟩ := h
    obtain ⟨rfl, _⟩ := mtx_eigenvalues_symm fuel junk A x t u iter hn hsz hA rc v' h
    exact ⟨v', h⟩
  unfold mtxEigenvalues
  rw [if_neg (by simp; omega)]
  simp only [mat_rows]
  obtain ⟨U, hU⟩ := uninit_eq junk n n
  rw [hU, mtx_balance_symm_partial fuel junk A U t [] hA h0 h1 hfuel, ok_bind]
  dsimp only
  obtain ⟨Q, R, hqr, -⟩ := mtx_qrd_hess_correct junk A U U [] [] [] hn hsz
  rw [hqr, ok_bind]
  dsimp only
  obtain ⟨M, hM, -⟩ := mtx_qrd_iter_charpoly junk R (Q.map XR.fin) [] [] iter hn (by omega)
  rw [show mat Q [] = mtxOf (Q.map XR.fin) [] from rfl, hM, ok_bind]
  dsimp only
  rw [vecInit_vec, ok_bind]
  dsimp only
  obtain ⟨b, hb1, hb2⟩ := mtx_is_sym_correct (junk 0) A t
  have hbt : b = true := hb2.2 fun i j => by
    rw [show A i j = A j i from congrFun (congrFun hA j) i, sub_self, abs_zero]
    norm_num
  rw [hb1, hbt, ok_bind, if_pos rfl]
  have hloop : (forN n (fun g (s : XR × List XR) => do
      let y ← mtxGet (mat M []) g g s.1
      let vd ← wr s.2 g y.2
      return (y.2, vd)) (junk 0, (vec (0 : Fin n → ℝ) u).data)).sat fun s => True := by
    refine (forN_sat (fun g (s : XR × List XR) => ∃ z : Fin n → ℝ, s.2 = arr z u) ⟨0, rfl⟩ ?_).mono fun _ _ => trivial
    rintro g hg ⟨y, l⟩ ⟨z, hl⟩
    dsimp only at hl ⊢
    subst hl
    obtain ⟨gg, rfl⟩ : ∃ gg : Fin n, gg.val = g := ⟨⟨g, hg⟩, rfl⟩
    have hget := mtx_get_correct (M.map XR.fin) [] y gg gg
    rw [show mat M [] = mtxOf (M.map XR.fin) [] from rfl, hget, ok_bind]
    dsimp only
    rw [Matrix.map_apply, arr_wr, ok_bind, pure_eq, sat_ok]
    exact ⟨_, rfl⟩
  obtain ⟨s, hs, -⟩ := hloop
  rw [hs, ok_bind]
  exact ⟨_, rfl⟩

/-- Non-vacuity: a symmetric matrix. -/
example (junk : ℕ → XR) (h0 : junk 0 = XR.fin 0) (h1 : junk 1 = XR.fin 0) (iter : ℕ) :
    ∃ a b : ℝ, mtxEigenvalues 1 junk (mat !![2, 1; 1, 5] []) (vecOf ![XR.nan, XR.nan] []) iter = ok (0, vec ![a, b] []) ∧ a + b = 7 := by
  have hA : (!![2, 1; 1, 5] : Matrix (Fin 2) (Fin 2) ℝ).transpose = !![2, 1; 1, 5] := by
    ext i j
    fin_cases i <;> fin_cases j <;> rfl
  have hsz : 2 * 2 < SIZE_MOD := by
    rw [SIZE_MOD_eq]
    norm_num
  obtain ⟨v', h⟩ := mtx_eigenvalues_symm_returns_partial 1 junk !![2, 1; 1, 5] ![XR.nan, XR.nan] [] [] iter (by norm_num) hsz hA h0 h1
    (by norm_num)
  obtain ⟨_, M, hv, _, hs⟩ := mtx_eigenvalues_symm 1 junk !![2, 1; 1, 5] ![XR.nan, XR.nan] [] [] iter (by norm_num) hsz hA 0 v' h
  refine ⟨M 0 0, M 1 1, ?_, ?_⟩
  · rw [h, hv]
    congr 3
    funext i
    fin_cases i <;> rfl
  · simp [Fin.sum_univ_two] at hs
    linarith

end Verif
