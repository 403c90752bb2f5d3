import Verif.Lemmas.Gauss

/-!
# Gauss-Jordan elimination when the companion matrix holds arbitrary values

`zsl_mtx_eigenvectors` passes an uninitialised companion matrix to `zsl_mtx_gauss_reduc`. The reduced matrix does not depend on it.
-/

set_option linter.unusedSectionVars false

namespace Verif

open Out

variable {n : ℕ}

theorem gaussElimLoop_any (M : Matrix (Fin n) (Fin n) ℝ) (t u : List XR) (i j : Fin n) (hy : M i j ≠ 0) :
    ∀ (k p : ℕ) (x : XR) (N : Matrix (Fin n) (Fin n) XR), n - p = k → p ≤ n → ∃ N' : Matrix (Fin n) (Fin n) XR,
      gaussElimLoop (mat (elimTo M M i j p) t) (mtxOf N u) i j x (XR.fin (M i j)) p =
        ok (0, mat (elimTo M M i j n) t, mtxOf N' u) := by
  intro k
  induction k using Nat.strong_induction_on with
  | _ k ih =>
    intro p x N hk hp
    rw [gaussElimLoop]
    by_cases hpn : p < n
    · rw [if_pos (by simpa using hpn)]
      obtain ⟨p', hp', hge, hne, hE⟩ : ∃ p', p' = (if p = i.val then p + 1 else p) ∧ p ≤ p' ∧ p' ≠ i.val ∧
          ∀ N', elimTo M N' i j p' = elimTo M N' i j p := by
        refine ⟨_, rfl, ?_, ?_, ?_⟩
        · split_ifs <;> omega
        · split_ifs <;> omega
        · intro N'
          split_ifs with h
          · rw [h, elimTo_self]
          · rfl
      rw [← hp', ← hE]
      dsimp only
      by_cases hend : p' = n
      · rw [if_pos (by simpa using hend), hend]
        exact ⟨N, rfl⟩
      · rw [if_neg (by simpa using hend)]
        have hlt : p' < n := by
          have : p' ≤ p + 1 := by rw [hp']; split_ifs <;> omega
          omega
        obtain ⟨q, rfl⟩ : ∃ q : Fin n, q.val = p' := ⟨⟨p', hlt⟩, rfl⟩
        have hqi : q ≠ i := fun h => hne (by rw [h])
        have hself : ∀ N' : Matrix (Fin n) (Fin n) ℝ, ∀ b, elimTo M N' i j q.val q b = N' q b := by
          intro N' b
          simp [elimTo]
        rw [mat_get, hself]
        simp only [ok_bind]
        by_cases hnz : 1 / 1000000 ≤ |M q j|
        · rw [if_pos ((isNonzeroE_fin _).2 hnz), XR.fin_div hy, XR.fin_neg,
            (mtx_row_ops_real _ _ _ _ _).2.1]
          simp only [ok_bind, ne_eq, not_true_eq_false, if_false]
          rw [(mtx_sum_rows_scaled_square N u _).1 q i]
          simp only [ok_bind, not_true_eq_false, if_false]
          have e1 := elimTo_step M M i j q hqi
          rw [if_pos hnz] at e1
          rw [← e1]
          exact ih (n - (q.val + 1)) (by omega) (q.val + 1) _ _ rfl (by omega)
        · rw [if_neg (by rw [isNonzeroE_fin]; exact hnz)]
          have e1 := elimTo_step M M i j q hqi
          rw [if_neg hnz] at e1
          rw [← e1]
          exact ih (n - (q.val + 1)) (by omega) (q.val + 1) _ _ rfl (by omega)
    · rw [if_neg (by simpa using hpn)]
      obtain rfl : p = n := by omega
      exact ⟨N, rfl⟩

theorem mtxGaussElimD_any (x0 : XR) (M : Matrix (Fin n) (Fin n) ℝ) (N : Matrix (Fin n) (Fin n) XR) (t u : List XR) (i j : Fin n) :
    ∃ N' : Matrix (Fin n) (Fin n) XR, mtxGaussElimD x0 (mat M t) (mtxOf N u) i j =
      ok (0, mat (if |M i j| < 1 / 1000000 then M else elimMat M i j * M) t, mtxOf N' u) := by
  unfold mtxGaussElimD gaussElimBody
  rw [mat_get]
  simp only [ok_bind, ne_eq, not_true_eq_false, if_false]
  by_cases h : |M i j| < 1 / 1000000
  · rw [if_pos ((isZeroE_fin _).2 h), if_pos h]
    exact ⟨N, rfl⟩
  · rw [if_neg (by rw [isZeroE_fin]; exact h), if_neg h]
    obtain ⟨N', this⟩ := gaussElimLoop_any M t u i j (by
      intro h0
      rw [h0] at h
      simp at h) n 0 x0 N (by omega) (by omega)
    rw [elimTo_zero, elimTo_full] at this
    exact ⟨N', this⟩

theorem mtxNormElemD_any (x0 : XR) (M : Matrix (Fin n) (Fin n) ℝ) (N : Matrix (Fin n) (Fin n) XR) (t u : List XR) (i j : Fin n) :
    ∃ N' : Matrix (Fin n) (Fin n) XR, mtxNormElemD x0 (mat M t) (mtxOf N u) i j =
      ok (0, mat (if |M i j| < 1 / 1000000 then M else normMat i (M i j) * M) t, mtxOf N' u) := by
  unfold mtxNormElemD normElemBody
  rw [mat_get]
  simp only [ok_bind, ne_eq, not_true_eq_false, if_false]
  by_cases h : |M i j| < 1 / 1000000
  · rw [if_pos ((isZeroE_fin _).2 h), if_pos h]
    exact ⟨N, rfl⟩
  · have h0 : M i j ≠ 0 := by
      intro h0
      rw [h0] at h
      simp at h
    rw [if_neg (by rw [isZeroE_fin]; exact h), if_neg h, XR.lit_eq, Rat.cast_one, XR.fin_div h0,
      (mtx_row_ops_real M t i i _).2.2]
    simp only [ok_bind, not_true_eq_false, if_false]
    rw [mtx_scalar_mult_row_correct]
    simp only [ok_bind, not_true_eq_false, if_false]
    rw [updateRow_eq_normMat]
    exact ⟨_, rfl⟩

theorem gaussPivot_any (M : Matrix (Fin n) (Fin n) ℝ) (N : Matrix (Fin n) (Fin n) XR) (t u v : List XR) (y : XR) (k : Fin n)
    (hv : v.length = n) :
    (gaussPivot n k v y (mat M t) (mtxOf N u)).sat fun r => r.1.length = n ∧
      (∃ N' : Matrix (Fin n) (Fin n) XR, r.2.2.2 = mtxOf N' u) ∧
      ((r.2.2.1 = mat M t ∧ ∀ q : Fin n, |M q k| < 1 / 1000000 ∨ (q < k ∧ 1 / 1000000 ≤ |M q q|)) ∨
      ∃ q : Fin n, 1 / 1000000 ≤ |M q k| ∧ ¬(q < k ∧ 1 / 1000000 ≤ |M q q|) ∧
        r.2.2.1 = mat (Matrix.transvection k q 1 * M) t) := by
  unfold gaussPivot
  have hcol : mtxGetCol (mat M t) k v = ok (0, arr (fun i => M i k) []) := by
    unfold mat
    rw [mtxOf_eq, mkM_getCol _ _ _ k.2 (by omega),
      range_map_eq_ofFn (x := fun i : Fin n => XR.fin (M i k)) (by simp)]
    simp [arr, hv]
  rw [hcol]
  simp only [ok_bind]
  have hlen : (arr (fun i => M i k) []).length = n := by simp [arr]
  have hloop := forRet_sat (n := n) (ρ := List XR × XR × Mtx XR × Mtx XR)
    (f := fun q (y : XR) => do
      let (_, y) ← mtxGet (mat M t) q q y
      let vq ← rd (arr (fun i => M i k) []) q
      if isNonzeroE vq then
        if q < k ∧ isNonzeroE y = true then return Ctl.next y
        else do
          let (_, mg) ← mtxSumRowsD (mat M t) k q
          let (_, mi) ← mtxSumRowsD (mtxOf N u) k q
          return Ctl.ret (arr (fun i => M i k) [], y, mg, mi)
      else return Ctl.next y) (s := y)
    (fun m _ => ∀ q : Fin n, q.val < m → |M q k| < 1 / 1000000 ∨ (q < k ∧ 1 / 1000000 ≤ |M q q|))
    (fun r => r.1.length = n ∧ (∃ N' : Matrix (Fin n) (Fin n) XR, r.2.2.2 = mtxOf N' u) ∧
      ∃ q : Fin n, 1 / 1000000 ≤ |M q k| ∧ ¬(q < k ∧ 1 / 1000000 ≤ |M q q|) ∧
        r.2.2.1 = mat (Matrix.transvection k q 1 * M) t)
    (by intro q hq; omega) (by
      rintro m hm y ih
      obtain ⟨q, rfl⟩ : ∃ q : Fin n, q.val = m := ⟨⟨m, hm⟩, rfl⟩
      dsimp only
      rw [mat_get]
      simp only [ok_bind]
      have hrd : rd (arr (fun i => M i k) []) q.val = ok (XR.fin (M q k)) := by
        rw [rd_lt (by simp [arr])]
        simp [arr]
      rw [hrd]
      simp only [ok_bind]
      have hstep : (|M q k| < 1 / 1000000 ∨ (q < k ∧ 1 / 1000000 ≤ |M q q|)) →
          ∀ q' : Fin n, q'.val < q.val + 1 → |M q' k| < 1 / 1000000 ∨ (q' < k ∧ 1 / 1000000 ≤ |M q' q'|) := by
        intro h q' hq'
        rcases Nat.lt_succ_iff_lt_or_eq.1 hq' with h1 | h1
        · exact ih q' h1
        · rw [Fin.ext h1]
          exact h
      by_cases h1 : 1 / 1000000 ≤ |M q k|
      · rw [if_pos ((isNonzeroE_fin _).2 h1)]
        by_cases h2 : q < k ∧ 1 / 1000000 ≤ |M q q|
        · rw [if_pos ⟨h2.1, (isNonzeroE_fin _).2 h2.2⟩]
          simp only [pure_eq, sat_ok]
          exact hstep (Or.inr h2)
        · rw [if_neg (by rw [isNonzeroE_fin]; exact h2), (mtx_row_ops_real M t k q 0).1]
          simp only [ok_bind]
          rw [mtx_sum_rows_correct]
          simp only [ok_bind, pure_eq, sat_ok]
          rw [updateRow_eq_transvection']
          exact ⟨hlen, ⟨_, rfl⟩, q, h1, h2, rfl⟩
      · rw [if_neg (by rw [isNonzeroE_fin]; exact h1)]
        simp only [pure_eq, sat_ok]
        exact hstep (Or.inl (not_le.1 h1)))
  obtain ⟨c, hc, hP⟩ := hloop
  rw [hc]
  rcases c with y' | r
  · rw [ok_bind]
    exact (sat_ok _ _).2 ⟨hlen, ⟨_, rfl⟩, Or.inl ⟨rfl, fun q => hP q q.2⟩⟩
  · simp only [ok_bind, pure_eq, sat_ok]
    exact ⟨hP.1, hP.2.1, Or.inr hP.2.2⟩

/-- One pass of the loop of `zsl_mtx_gauss_reduc`. -/
theorem gaussReducStep_any (junk : ℕ → XR) (M : Matrix (Fin n) (Fin n) ℝ) (N : Matrix (Fin n) (Fin n) XR) (t u v : List XR)
    (x y : XR) (k : Fin n) (hv : v.length = n) :
    (gaussReducStep junk n k ⟨x, y, v, mat M t, mtxOf N u⟩).sat fun s => s.v.length = n ∧
      (∃ N' : Matrix (Fin n) (Fin n) XR, s.mi = mtxOf N' u) ∧
      ∃ Q, PivotRow M k Q ∧ s.mg = mat (stepMat (Q * M) k * (Q * M)) t := by
  unfold gaussReducStep
  dsimp only
  rw [mat_get]
  simp only [ok_bind]
  have hpiv : (if isZeroE (XR.fin (M k k)) = true then gaussPivot n k v y (mat M t) (mtxOf N u)
      else ok (v, y, mat M t, mtxOf N u)).sat fun r => r.1.length = n ∧
        (∃ N' : Matrix (Fin n) (Fin n) XR, r.2.2.2 = mtxOf N' u) ∧ ∃ Q, PivotRow M k Q ∧ r.2.2.1 = mat (Q * M) t := by
    by_cases h : |M k k| < 1 / 1000000
    · rw [if_pos ((isZeroE_fin _).2 h)]
      refine (gaussPivot_any M N t u v y k hv).mono ?_
      rintro r ⟨h1, hN, (⟨h2, h4⟩ | ⟨q, h2, h3, h4⟩)⟩
      · exact ⟨h1, hN, 1, Or.inr (Or.inl ⟨h, rfl, h4⟩), by rw [h2, one_mul]⟩
      · refine ⟨h1, hN, _, Or.inr (Or.inr ⟨h, q, ?_, h2, h3, rfl⟩), h4⟩
        rintro rfl
        linarith
    · rw [if_neg (by rw [isZeroE_fin]; exact h)]
      rw [sat_ok]
      exact ⟨hv, ⟨_, rfl⟩, 1, Or.inl ⟨not_lt.1 h, rfl⟩, by rw [one_mul]⟩
  obtain ⟨⟨v', y', mg, mi⟩, hr, hl, ⟨N1, hmi⟩, Q, hQ, hmg⟩ := hpiv
  dsimp only at hl hmg hmi
  rw [hr]
  simp only [ok_bind]
  obtain ⟨N2, hN2⟩ := mtxGaussElimD_any (junk 0) (Q * M) N1 t u k k
  rw [hmg, hmi, hN2]
  simp only [ok_bind]
  obtain ⟨N3, hN3⟩ := mtxNormElemD_any (junk 0) (if |(Q * M) k k| < 1 / 1000000 then Q * M else elimMat (Q * M) k k * (Q * M)) N2 t u k k
  rw [hN3]
  simp only [ok_bind, pure_eq, sat_ok]
  refine ⟨hl, ⟨_, rfl⟩, Q, hQ, ?_⟩
  congr 1
  by_cases h : |(Q * M) k k| < 1 / 1000000
  · rw [if_pos h, if_pos h, stepMat, if_pos h, one_mul]
  · have hkk : (elimMat (Q * M) k k * (Q * M)) k k = (Q * M) k k := by
      rw [elimMat_mul, mulOf_self]
      ring
    rw [if_neg h, hkk, if_neg h, stepMat, if_neg h, Matrix.mul_assoc]

/-- The loop of `zsl_mtx_gauss_reduc`, with any invariant of the reduced matrix that the steps preserve. -/
theorem mtxGaussReduc_any (junk : ℕ → XR) (A : Matrix (Fin n) (Fin n) ℝ) (B C : Matrix (Fin n) (Fin n) XR) (t u w : List XR)
    (hn : 0 < n) (I : ℕ → Matrix (Fin n) (Fin n) ℝ → Prop) (h0 : I 0 A)
    (hI : ∀ (k : Fin n) M Q, I k M → PivotRow M k Q → I (k.val + 1) (stepMat (Q * M) k * (Q * M))) :
    ∃ M, I n M ∧ ∃ N : Matrix (Fin n) (Fin n) XR,
      mtxGaussReduc junk (mat A t) (mtxOf B u) (mtxOf C w) = ok (0, mtxOf N u, mat M w) := by
  unfold mtxGaussReduc
  rw [if_neg (by simp; omega)]
  have hcopy : mtxCopy (mtxOf C w) (mat A t) = ok (0, mat A w) := mtx_copy_correct _ _ _ _
  rw [hcopy]
  simp only [ok_bind, mat_rows]
  have hloop := forN_sat (n := n) (f := fun k s => gaussReducStep junk n k s)
    (s := ⟨junk 0, junk 0, junkArr junk n, mat A w, mtxOf B u⟩)
    (fun k s => s.v.length = n ∧ (∃ N : Matrix (Fin n) (Fin n) XR, s.mi = mtxOf N u) ∧ ∃ M, I k M ∧ s.mg = mat M w)
    ⟨by simp [junkArr], ⟨B, rfl⟩, A, h0, rfl⟩ (by
      rintro k hk ⟨x, y, v, mg, mi⟩ ⟨hv, ⟨N, hmi⟩, M, hM, hmg⟩
      dsimp only at hv hmg hmi ⊢
      rw [hmg, hmi]
      refine (gaussReducStep_any junk M N w u v x y ⟨k, hk⟩ hv).mono ?_
      rintro s ⟨h1, h2, Q, hQ, h3⟩
      exact ⟨h1, h2, _, hI ⟨k, hk⟩ M Q hM hQ, h3⟩)
  obtain ⟨s, hs, _, ⟨N, hmi⟩, M, hM, hmg⟩ := hloop
  refine ⟨M, hM, N, ?_⟩
  rw [hs]
  simp only [ok_bind, pure_eq]
  rw [hmg, hmi]

/-- The diagonal matrix after the first `k` columns. -/
noncomputable def diagStep (e : Fin n → ℝ) (k : ℕ) : Matrix (Fin n) (Fin n) ℝ :=
  Matrix.diagonal fun i : Fin n => if i.val < k ∧ ¬|e i| < 1 / 1000000 then 1 else e i

theorem diagStep_zero (e : Fin n → ℝ) : diagStep e 0 = Matrix.diagonal e := by
  simp [diagStep]

theorem diagStep_succ (e : Fin n → ℝ) (k : Fin n) (Q : Matrix (Fin n) (Fin n) ℝ) (hQ : PivotRow (diagStep e k) k Q) :
    stepMat (Q * diagStep e k) k * (Q * diagStep e k) = diagStep e (k.val + 1) := by
  have hkk : diagStep e k k k = e k := by simp [diagStep]
  have hoff : ∀ q, q ≠ k → diagStep e k q k = 0 := fun q hq => by
    rw [diagStep, Matrix.diagonal_apply_ne _ hq]
  have hQ1 : Q = 1 := by
    rcases hQ with ⟨_, h⟩ | ⟨_, h, _⟩ | ⟨h1, q, hq, h2, _, _⟩
    · exact h
    · exact h
    · rw [hoff q hq] at h2
      norm_num at h2
  rw [hQ1, one_mul]
  unfold stepMat
  rw [hkk]
  by_cases hz : |e k| < 1 / 1000000
  · rw [if_pos hz, one_mul]
    unfold diagStep
    congr 1
    funext i
    by_cases hik : i.val = k.val
    · obtain rfl : i = k := Fin.ext hik
      rw [if_neg (fun h => h.2 hz), if_neg (fun h => h.2 hz)]
    · exact if_congr (and_congr_left' (by omega)) rfl rfl
  · have hz0 : e k ≠ 0 := ne_zero_of_not_small hz
    rw [if_neg hz]
    have hel : elimMat (diagStep e k) k k * diagStep e k = diagStep e k := by
      ext a b
      rw [elimMat_mul]
      have : mulOf (diagStep e k) k k a = 0 := by
        unfold mulOf
        rw [if_neg]
        rintro ⟨ha, h2⟩
        rw [hoff a ha] at h2
        norm_num at h2
      rw [this, zero_mul, sub_zero]
    rw [Matrix.mul_assoc, hel]
    ext a b
    rw [normMat_mul]
    by_cases hab : a = b
    · subst hab
      by_cases hak : a = k
      · subst hak
        rw [if_pos rfl, hkk, div_self hz0, diagStep, Matrix.diagonal_apply_eq, if_pos ⟨by omega, hz⟩]
      · rw [if_neg hak, diagStep, diagStep, Matrix.diagonal_apply_eq, Matrix.diagonal_apply_eq]
        have : a.val ≠ k.val := fun h => hak (Fin.ext h)
        exact if_congr (and_congr_left' (by omega)) rfl rfl
    · have h1 : ∀ m, diagStep e m a b = 0 := fun m => by rw [diagStep, Matrix.diagonal_apply_ne _ hab]
      rw [h1]
      split_ifs with hak
      · subst hak
        rw [h1, zero_div, h1]
      · exact (h1 _).symm

/-- A diagonal matrix: the entries that are not small become one. -/
theorem mtxGaussReduc_diagonal (junk : ℕ → XR) (e : Fin n → ℝ) (B C : Matrix (Fin n) (Fin n) XR) (t u w : List XR)
    (hn : 0 < n) : ∃ N : Matrix (Fin n) (Fin n) XR,
      mtxGaussReduc junk (mat (Matrix.diagonal e) t) (mtxOf B u) (mtxOf C w) = ok (0, mtxOf N u, mat (diagStep e n) w) := by
  obtain ⟨M, rfl, N, h⟩ := mtxGaussReduc_any junk (Matrix.diagonal e) B C t u w hn (fun k M => M = diagStep e k)
    (diagStep_zero e).symm (by
      rintro k M Q rfl hQ
      exact diagStep_succ e k Q hQ)
  exact ⟨N, h⟩

/-- A matrix all of whose entries are small is left as it is. -/
theorem mtxGaussReduc_small (junk : ℕ → XR) (A : Matrix (Fin n) (Fin n) ℝ) (B C : Matrix (Fin n) (Fin n) XR) (t u w : List XR)
    (hn : 0 < n) (hA : ∀ i j, |A i j| < 1 / 1000000) : ∃ N : Matrix (Fin n) (Fin n) XR,
      mtxGaussReduc junk (mat A t) (mtxOf B u) (mtxOf C w) = ok (0, mtxOf N u, mat A w) := by
  obtain ⟨M, rfl, N, h⟩ := mtxGaussReduc_any junk A B C t u w hn (fun _ M => M = A) rfl (by
      rintro k M Q rfl hQ
      have hQ1 : Q = 1 := by
        rcases hQ with ⟨_, h⟩ | ⟨_, h, _⟩ | ⟨h1, q, hq, h2, _, _⟩
        · exact h
        · exact h
        · exact absurd h2 (not_le.2 (hA q k))
      rw [hQ1, one_mul]
      unfold stepMat
      rw [if_pos (hA k k), one_mul])
  exact ⟨N, h⟩

end Verif
