import Verif.Props.Svd1
import Verif.Lemmas.MultGen

/-!
# Singular value decomposition and pseudo-inverse: diagonal matrices, the two errors of the decomposition, and the pseudo-inverse (C120, C121)
-/

set_option linter.unusedSectionVars false

namespace Verif

open Out Matrix

variable {m n : ℕ}

theorem spectrum_diagonal (junk : ℕ → XR) (k : Fin n → ℝ) (iter : ℕ) (hn : 0 < n) (hsz : 2 * n < SIZE_MOD)
    (h0 : junk 0 = XR.fin 0) (h1 : junk 1 = XR.fin 0) (hd : Antitone k) (hz : ∀ i, k i = 0 ∨ 1 / 1000000 ≤ k i)
    (hsep : ∀ i j, k j = k i ∨ 1 / 1000000 ≤ |k j - k i|) :
    ∃ F, ∀ fuel, F ≤ fuel → Spectrum fuel junk (Matrix.diagonal k) iter k := by
  obtain ⟨F, hF⟩ := mtx_eigenvalues_diagonal junk k (fun i : Fin n => junk i) [] [] iter hn hsz h0 h1
  refine ⟨F, fun fuel hf => ⟨⟨0, ?_⟩, Matrix.charpoly_diagonal k, hd, hz, hsep, fun i => ?_⟩⟩
  · rw [vecUninit_eq]
    exact hF fuel hf
  · have : Matrix.diagonal k - k i • (1 : Matrix (Fin n) (Fin n) ℝ) = Matrix.diagonal fun j => k j - k i := by
      rw [Matrix.smul_one_eq_diagonal, Matrix.diagonal_sub]
    rw [this]
    refine noTiny_diagonal _ fun j => ?_
    rcases hsep i j with h | h
    · exact Or.inl (by rw [h, sub_self])
    · exact Or.inr h

/-- A rectangular matrix with the entries `d` on the diagonal. -/
def rectDiag (m : ℕ) (d : Fin n → ℝ) : Matrix (Fin m) (Fin n) ℝ := Matrix.of fun a b => if a.val = b.val then d b else 0

theorem rectDiag_left (d : Fin n → ℝ) (hnm : n ≤ m) : (rectDiag m d).transpose * rectDiag m d = Matrix.diagonal fun i => d i ^ 2 := by
  ext i j
  rw [Matrix.mul_apply, Finset.sum_eq_single (⟨i.val, by omega⟩ : Fin m)]
  · rw [Matrix.transpose_apply, rectDiag, Matrix.of_apply, Matrix.of_apply, if_pos rfl, Matrix.diagonal_apply]
    by_cases hij : i = j
    · subst hij
      rw [if_pos rfl, if_pos rfl, sq]
    · rw [if_neg (fun h => hij (Fin.ext h)), if_neg hij, mul_zero]
  · intro b _ hb
    rw [Matrix.transpose_apply, rectDiag, Matrix.of_apply, if_neg (fun h => hb (Fin.ext h)), zero_mul]
  · simp

theorem rectDiag_right (d : Fin n → ℝ) : rectDiag m d * (rectDiag m d).transpose =
    Matrix.diagonal fun a : Fin m => if h : a.val < n then d ⟨a, h⟩ ^ 2 else 0 := by
  ext a b
  rw [Matrix.mul_apply, Matrix.diagonal_apply]
  by_cases ha : a.val < n
  · rw [Finset.sum_eq_single (⟨a.val, ha⟩ : Fin n)]
    · rw [Matrix.transpose_apply, rectDiag, Matrix.of_apply, Matrix.of_apply, if_pos rfl, dif_pos ha]
      by_cases hab : a = b
      · subst hab
        rw [if_pos rfl, if_pos rfl, sq]
      · rw [if_neg (fun h => hab (Fin.ext h.symm)), if_neg hab, mul_zero]
    · intro j _ hj
      rw [rectDiag, Matrix.of_apply, if_neg (fun h => hj (Fin.ext h.symm)), zero_mul]
    · simp
  · rw [dif_neg ha, ite_self]
    refine Finset.sum_eq_zero fun j _ => ?_
    rw [rectDiag, Matrix.of_apply, if_neg (by omega), zero_mul]

/-- The spectra of a rectangular diagonal matrix. -/
theorem spectrum_rectDiag (junk : ℕ → XR) (d : Fin n → ℝ) (iter : ℕ) (hn : 0 < n) (hnm : n ≤ m) (hsz : 2 * m < SIZE_MOD)
    (h0 : junk 0 = XR.fin 0) (h1 : junk 1 = XR.fin 0) (hd : Antitone fun i => d i ^ 2) (hz : ∀ i, d i = 0 ∨ 1 / 1000000 ≤ d i ^ 2)
    (hsep : ∀ i j, d j ^ 2 = d i ^ 2 ∨ 1 / 1000000 ≤ |d j ^ 2 - d i ^ 2|) :
    ∃ F, ∀ fuel, F ≤ fuel → Spectrum fuel junk ((rectDiag m d).transpose * rectDiag m d) iter (fun i => d i ^ 2) ∧
      ∃ l, Spectrum fuel junk (rectDiag m d * (rectDiag m d).transpose) iter l := by
  have hz' : ∀ i, d i ^ 2 = 0 ∨ 1 / 1000000 ≤ d i ^ 2 := fun i => (hz i).imp (fun h => by rw [h]; norm_num) id
  obtain ⟨F1, hF1⟩ := spectrum_diagonal junk (fun i => d i ^ 2) iter hn (by omega) h0 h1 hd hz' hsep
  obtain ⟨F2, hF2⟩ := spectrum_diagonal junk (fun a : Fin m => if h : a.val < n then d ⟨a, h⟩ ^ 2 else 0) iter (by omega) hsz h0 h1 (by
    intro a b hab
    dsimp only
    have hab' := Fin.le_def.1 hab
    split_ifs with h2 h3
    · exact hd (Fin.le_def.2 hab')
    · omega
    · exact sq_nonneg _
    · exact le_rfl) (by
    intro a
    split_ifs with h2
    · exact hz' _
    · exact Or.inl rfl) (by
    intro a b
    split_ifs with h2 h3 h3
    · exact hsep _ _
    · rw [sub_zero]
      exact (hz' _).imp id fun h => le_trans h (le_abs_self _)
    · rw [zero_sub, abs_neg]
      exact (hz' _).imp Eq.symm fun h => le_trans h (le_abs_self _)
    · exact Or.inl rfl)
  refine ⟨max F1 F2, fun fuel hf => ⟨?_, fun a : Fin m => if h : a.val < n then d ⟨a, h⟩ ^ 2 else 0, ?_⟩⟩
  · rw [rectDiag_left d hnm]
    exact hF1 fuel (le_trans (le_max_left _ _) hf)
  · rw [rectDiag_right d]
    exact hF2 fuel (le_trans (le_max_right _ _) hf)

/-- C120. In particular: the decomposition of a rectangular diagonal matrix whose entries descend in absolute value and whose squares are
separated, if the uninitialised locals of the balancing step hold zero. -/
theorem mtx_svd_diagonal (junk : ℕ → XR) (d : Fin n → ℝ) (t u e v : List XR) (U0 : Matrix (Fin m) (Fin m) XR) (E0 : Matrix (Fin m) (Fin n) XR)
    (V0 : Matrix (Fin n) (Fin n) XR) (iter : ℕ) (hn : 0 < n) (hnm : n ≤ m) (hsz : 2 * m < SIZE_MOD)
    (h0 : junk 0 = XR.fin 0) (h1 : junk 1 = XR.fin 0) (hd : Antitone fun i => d i ^ 2) (hz : ∀ i, d i = 0 ∨ 1 / 1000000 ≤ d i ^ 2)
    (hsep : ∀ i j, d j ^ 2 = d i ^ 2 ∨ 1 / 1000000 ≤ |d j ^ 2 - d i ^ 2|) :
    ∃ F, ∀ fuel, F ≤ fuel → ∃ (U : Matrix (Fin m) (Fin m) ℝ) (V : Matrix (Fin n) (Fin n) ℝ),
      mtxSvd fuel junk (mat (rectDiag m d) t) (mtxOf U0 u) (mtxOf E0 e) (mtxOf V0 v) iter =
        ok (0, mat U u, mat (rectDiag m fun i => |d i|) e, mat V v) ∧
      U.transpose * U = 1 ∧ V.transpose * V = 1 ∧ rectDiag m d = U * (rectDiag m fun i => |d i|) * V.transpose := by
  obtain ⟨F, hF⟩ := spectrum_rectDiag junk d iter hn hnm hsz h0 h1 hd hz hsep
  refine ⟨F, fun fuel hf => ?_⟩
  obtain ⟨hk, l, hl⟩ := hF fuel hf
  obtain ⟨U, E, V, h2, h3, h4, h5, h6⟩ := mtx_svd_correct fuel junk (rectDiag m d) t u e v U0 E0 V0 iter hn hnm _ l hk hl
  have hE : E = rectDiag m fun i => |d i| := by
    ext a b
    rw [h5, rectDiag, Matrix.of_apply, Real.sqrt_sq_eq_abs]
  subst hE
  exact ⟨U, V, h2, h3, h4, h6⟩

/-- Non-vacuity: a 4x3 matrix of rank 2 with a negative entry. -/
example (junk : ℕ → XR) (h0 : junk 0 = XR.fin 0) (h1 : junk 1 = XR.fin 0) :
    ∃ (fuel : ℕ) (U : Matrix (Fin 4) (Fin 4) ℝ) (V : Matrix (Fin 3) (Fin 3) ℝ),
      mtxSvd fuel junk (mat (rectDiag 4 ![-3, 2, 0]) []) (mat (0 : Matrix (Fin 4) (Fin 4) ℝ) []) (mat (0 : Matrix (Fin 4) (Fin 3) ℝ) [])
        (mat (0 : Matrix (Fin 3) (Fin 3) ℝ) []) 5 =
        ok (0, mat U [], mat (rectDiag 4 fun i => |(![-3, 2, 0] : Fin 3 → ℝ) i|) [], mat V []) ∧
      rectDiag 4 ![-3, 2, 0] = U * (rectDiag 4 fun i => |(![-3, 2, 0] : Fin 3 → ℝ) i|) * V.transpose := by
  obtain ⟨F, hF⟩ := mtx_svd_diagonal (m := 4) junk ![-3, 2, 0] [] [] [] [] ((0 : Matrix (Fin 4) (Fin 4) ℝ).map XR.fin)
    ((0 : Matrix (Fin 4) (Fin 3) ℝ).map XR.fin) ((0 : Matrix (Fin 3) (Fin 3) ℝ).map XR.fin) 5 (by norm_num) (by norm_num)
    (by rw [SIZE_MOD_eq]; norm_num) h0 h1 (by
      intro i j hij
      revert hij
      fin_cases i <;> fin_cases j <;> (norm_num; try decide)) (by
      intro i
      fin_cases i <;> norm_num) (by
      intro i j
      fin_cases i <;> fin_cases j <;> norm_num)
  obtain ⟨U, V, h2, -, -, h3⟩ := hF F le_rfl
  exact ⟨F, U, V, h2, h3⟩

/-! ### Wide matrices -/

section wide

variable {R : Type} [CReal R]

theorem run_inv {α β : Type} {x : Out α} {f : α → Out β} {b : β} (h : x >>= f = ok b) : ∃ a, x = ok a ∧ f a = ok b := by
  cases x with
  | ok a => exact ⟨a, rfl, h⟩
  | ub => exact absurd h (by simp [Bind.bind, Out.bind])

theorem forN_bad {σ : Type} {n : ℕ} {f : ℕ → σ → Out σ} (i : ℕ) (hi : i < n) (h : ∀ s, f i s = ub) (s : σ) : forN n f s = ub := by
  induction n with
  | zero => omega
  | succ n ih =>
    rw [forN_succ]
    by_cases hn : i = n
    · subst hn
      cases forN i f s with
      | ok t => rw [ok_bind, h]
      | ub => rfl
    · rw [ih (by omega), ub_bind]

theorem memcpyAt_short {α : Type} (dst src : List α) (n : ℕ) (h : src.length < n) : memcpyAt dst 0 src 0 n = ub := by
  refine forN_bad src.length h (fun d => ?_) dst
  rw [rd_ge (by simp), ub_bind]

theorem getCol_length (M : Mtx R) (j : ℕ) (l : List R) : (mtxGetCol M j l).post fun p => p.2.length = l.length := by
  unfold mtxGetCol
  refine Out.post.bind (P := fun c => match c with | .ret r => r.2.length = l.length | .next v => v.length = l.length) ?_ ?_
  · generalize hn : M.rows = k
    clear hn
    induction k with
    | zero => exact Out.post_ok rfl
    | succ k ih =>
      rw [forRet]
      refine ih.bind fun c hc => ?_
      cases c with
      | ret r => exact Out.post_ok hc
      | next v =>
        dsimp only at hc ⊢
        refine Out.post_any fun x => ?_
        split_ifs
        · exact Out.post_ok hc
        · intro c hc2
          obtain ⟨v', hv, hc3⟩ := run_inv hc2
          cases hc3
          have hlen : k < v.length := by
            by_contra h
            rw [wr_ge _ (not_lt.1 h)] at hv
            cases hv
          rw [wr_lt _ hlen] at hv
          cases hv
          simpa using hc
  · intro c hc
    cases c with
    | ret r => exact Out.post_ok hc
    | next v => exact Out.post_ok hc

theorem forN_first_bad {σ : Type} {n : ℕ} {f : ℕ → σ → Out σ} {s : σ} (hn : 0 < n) (h : f 0 s = ub) : forN n f s = ub := by
  obtain ⟨k, rfl⟩ : ∃ k, n = k + 1 := ⟨n - 1, by omega⟩
  clear hn
  induction k with
  | zero => rw [forN_succ, forN_zero, ok_bind, h]
  | succ k ih => rw [forN_succ, ih, ub_bind]

/-- C120. For a matrix with more columns than rows `zsl_mtx_svd` never returns: the local vector of `rows` elements receives, and is then read
as, a column of `cols` elements. This holds for every content, every scalar type and every set of outputs. -/
theorem mtx_svd_wide (fuel : ℕ) (junk : ℕ → R) (M u e v : Mtx R) (iter : ℕ) (hr : 0 < M.rows) (hw : M.rows < M.cols) :
    mtxSvd fuel junk M u e v iter = ub := by
  cases hres : mtxSvd fuel junk M u e v iter with
  | ub => rfl
  | ok r =>
    exfalso
    unfold mtxSvd at hres
    rw [if_neg (by omega)] at hres
    obtain ⟨x1, -, hres⟩ := run_inv hres
    obtain ⟨x2, -, hres⟩ := run_inv hres
    obtain ⟨x3, -, hres⟩ := run_inv hres
    obtain ⟨x4, -, hres⟩ := run_inv hres
    obtain ⟨x5, -, hres⟩ := run_inv hres
    obtain ⟨x6, -, hres⟩ := run_inv hres
    obtain ⟨x7, -, hres⟩ := run_inv hres
    obtain ⟨x8, h8, -⟩ := run_inv hres
    rw [forN_first_bad (by rw [if_pos hw.le]; exact hr)] at h8
    · cases h8
    · dsimp only
      cases hc : mtxGetCol x7.2 0 (junkArr junk M.rows) with
      | ub => rfl
      | ok y =>
        have hlen := getCol_length _ _ _ y hc
        rw [ok_bind]
        have hbad : mtxFromArr (Mtx.uninit junk M.cols 1) y.2 = ub := by
          unfold mtxFromArr
          rw [memcpyAt_short]
          · rfl
          · rw [hlen]
            simpa [junkArr, Mtx.uninit] using hw
        rw [hbad, ub_bind]

/-- C121. So `zsl_mtx_pinv` never returns for these matrices either. -/
theorem mtx_pinv_wide (fuel : ℕ) (junk : ℕ → R) (M p : Mtx R) (iter : ℕ) (hr : 0 < M.rows) (hw : M.rows < M.cols) :
    mtxPinv fuel junk M p iter = ub := by
  unfold mtxPinv
  rw [if_neg (by omega), mtx_svd_wide fuel junk M _ _ _ iter hr hw, ub_bind]

example : mtxSvd 5 (fun _ => XR.fin 0) (mat (Matrix.of fun (_ : Fin 1) (_ : Fin 2) => 1) []) ⟨1, 1, [XR.fin 0]⟩
    ⟨1, 2, [XR.fin 0, XR.fin 0]⟩ ⟨2, 2, [XR.fin 0, XR.fin 0, XR.fin 0, XR.fin 0]⟩ 3 = ub :=
  mtx_svd_wide _ _ _ _ _ _ _ (by simp) (by simp)

end wide

end Verif
