import Mathlib.LinearAlgebra.Matrix.NonsingularInverse
import Mathlib.LinearAlgebra.Matrix.Transvection
import Verif.Props.Matrices4

/-!
# Gauss-Jordan elimination on real matrices

The effect of each step of `zsl_mtx_gauss_elim`, `zsl_mtx_norm_elem` and `zsl_mtx_gauss_reduc` as a left multiplication.
-/

set_option linter.unusedSectionVars false

namespace Verif

open Out

variable {n : ℕ}

theorem eps6 : ((1e-6 : ℚ) : ℝ) = 1 / 1000000 := by norm_num

theorem isZeroE_fin (x : ℝ) : isZeroE (XR.fin x) = true ↔ |x| < 1 / 1000000 := by
  unfold isZeroE
  simp only [XR.lit_eq, eps6, Rat.cast_zero, XR.fin_neg, Bool.or_eq_true, Bool.and_eq_true, XR.fin_ge,
    XR.fin_lt, XR.fin_le, XR.fin_gt, abs_lt]
  constructor
  · rintro (⟨h1, h2⟩ | ⟨h1, h2⟩) <;> constructor <;> linarith
  · rintro ⟨h1, h2⟩
    rcases le_total 0 x with h | h
    · exact Or.inl ⟨h, h2⟩
    · exact Or.inr ⟨h, h1⟩

theorem isNonzeroE_fin (x : ℝ) : isNonzeroE (XR.fin x) = true ↔ 1 / 1000000 ≤ |x| := by
  unfold isNonzeroE
  simp only [XR.lit_eq, eps6, XR.fin_neg, Bool.or_eq_true, XR.fin_ge, XR.fin_le, le_abs]
  constructor
  · rintro (h | h)
    · exact Or.inl h
    · exact Or.inr (by linarith)
  · rintro (h | h)
    · exact Or.inl h
    · exact Or.inr (by linarith)

/-- Rows of `N` after the rows above `p` have been processed with the multipliers of column `j` of `M`. -/
noncomputable def elimTo (M N : Matrix (Fin n) (Fin n) ℝ) (i j : Fin n) (p : ℕ) : Matrix (Fin n) (Fin n) ℝ :=
  Matrix.of fun a b => if a.val < p ∧ a ≠ i ∧ 1 / 1000000 ≤ |M a j| then N a b - M a j / M i j * N i b else N a b

theorem elimTo_zero (M N : Matrix (Fin n) (Fin n) ℝ) (i j : Fin n) : elimTo M N i j 0 = N := by
  ext a b
  simp [elimTo]

theorem elimTo_self (M N : Matrix (Fin n) (Fin n) ℝ) (i j : Fin n) :
    elimTo M N i j (i.val + 1) = elimTo M N i j i.val := by
  ext a b
  simp only [elimTo, Matrix.of_apply]
  refine if_congr ?_ rfl rfl
  constructor
  · rintro ⟨h1, h2, h3⟩
    exact ⟨by have : a.val ≠ i.val := fun h => h2 (Fin.ext h); omega, h2, h3⟩
  · rintro ⟨h1, h2, h3⟩
    exact ⟨by omega, h2, h3⟩

theorem elimTo_step (M N : Matrix (Fin n) (Fin n) ℝ) (i j p : Fin n) (hp : p ≠ i) :
    elimTo M N i j (p.val + 1) = if 1 / 1000000 ≤ |M p j| then
      (elimTo M N i j p.val).updateRow p
        (elimTo M N i j p.val p + (-(M p j / M i j)) • elimTo M N i j p.val i) else elimTo M N i j p.val := by
  ext a b
  by_cases ha : a = p
  · subst ha
    split_ifs with h
    · rw [Matrix.updateRow_self]
      simp only [elimTo, Matrix.of_apply, Pi.add_apply, Pi.smul_apply, smul_eq_mul]
      rw [if_pos ⟨by omega, hp, h⟩, if_neg (by omega), if_neg (fun hh => hh.2.1 rfl)]
      ring
    · simp only [elimTo, Matrix.of_apply]
      rw [if_neg (fun hh => h hh.2.2), if_neg (fun hh => h hh.2.2)]
  · have hne : a.val ≠ p.val := fun h => ha (Fin.ext h)
    have : elimTo M N i j (p.val + 1) a b = elimTo M N i j p.val a b := by
      simp only [elimTo, Matrix.of_apply]
      refine if_congr ?_ rfl rfl
      constructor
      · rintro ⟨h1, h2⟩
        exact ⟨by omega, h2⟩
      · rintro ⟨h1, h2⟩
        exact ⟨by omega, h2⟩
    rw [this]
    split_ifs with h
    · rw [Matrix.updateRow_ne ha]
    · rfl

theorem mat_get (M : Matrix (Fin n) (Fin n) ℝ) (t : List XR) (x : XR) (i j : Fin n) :
    mtxGet (mat M t) i j x = ok (0, XR.fin (M i j)) := mtx_get_correct (M.map XR.fin) t x i j

theorem gaussElimLoop_eq (M N : Matrix (Fin n) (Fin n) ℝ) (t u : List XR) (i j : Fin n) (hy : M i j ≠ 0) :
    ∀ (k p : ℕ) (x : XR), n - p = k → p ≤ n →
      gaussElimLoop (mat (elimTo M M i j p) t) (mat (elimTo M N i j p) u) i j x (XR.fin (M i j)) p =
        ok (0, mat (elimTo M M i j n) t, mat (elimTo M N i j n) u) := by
  intro k
  induction k using Nat.strong_induction_on with
  | _ k ih =>
    intro p x hk hp
    rw [gaussElimLoop]
    by_cases hpn : p < n
    · rw [if_pos (by simpa using hpn)]
      obtain ⟨p', hp', hge, hne, hE⟩ : ∃ p', p' = (if p = i.val then p + 1 else p) ∧ p ≤ p' ∧ p' ≠ i.val ∧
          ∀ N', elimTo M N' i j p' = elimTo M N' i j p := by
        refine ⟨_, rfl, ?_, ?_, ?_⟩
        · split_ifs <;> omega
        · split_ifs <;> omega
        · intro N'
          split_ifs with h
          · rw [h, elimTo_self]
          · rfl
      rw [← hp', ← hE, ← hE]
      dsimp only
      by_cases hend : p' = n
      · rw [if_pos (by simpa using hend), hend]
      · rw [if_neg (by simpa using hend)]
        have hlt : p' < n := by
          have : p' ≤ p + 1 := by rw [hp']; split_ifs <;> omega
          omega
        obtain ⟨q, rfl⟩ : ∃ q : Fin n, q.val = p' := ⟨⟨p', hlt⟩, rfl⟩
        have hqi : q ≠ i := fun h => hne (by rw [h])
        have hself : ∀ N' : Matrix (Fin n) (Fin n) ℝ, ∀ b, elimTo M N' i j q.val q b = N' q b := by
          intro N' b
          simp [elimTo]
        rw [mat_get, hself]
        simp only [ok_bind]
        by_cases hnz : 1 / 1000000 ≤ |M q j|
        · rw [if_pos ((isNonzeroE_fin _).2 hnz), XR.fin_div hy, XR.fin_neg,
            (mtx_row_ops_real _ _ _ _ _).2.1]
          simp only [ok_bind, ne_eq, not_true_eq_false, if_false]
          rw [(mtx_row_ops_real _ _ _ _ _).2.1]
          simp only [ok_bind, not_true_eq_false, if_false]
          have e1 := elimTo_step M M i j q hqi
          have e2 := elimTo_step M N i j q hqi
          rw [if_pos hnz] at e1 e2
          rw [← e1, ← e2]
          exact ih (n - (q.val + 1)) (by omega) (q.val + 1) _ rfl (by omega)
        · rw [if_neg (by rw [isNonzeroE_fin]; exact hnz)]
          have e1 := elimTo_step M M i j q hqi
          have e2 := elimTo_step M N i j q hqi
          rw [if_neg hnz] at e1 e2
          rw [← e1, ← e2]
          exact ih (n - (q.val + 1)) (by omega) (q.val + 1) _ rfl (by omega)
    · rw [if_neg (by simpa using hpn)]
      obtain rfl : p = n := by omega
      rfl

/-- The multiplier of row `p` at pivot `(i, j)`. -/
noncomputable def mulOf (M : Matrix (Fin n) (Fin n) ℝ) (i j p : Fin n) : ℝ :=
  if p ≠ i ∧ 1 / 1000000 ≤ |M p j| then M p j / M i j else 0

/-- The elimination step as a matrix. -/
noncomputable def elimMat (M : Matrix (Fin n) (Fin n) ℝ) (i j : Fin n) : Matrix (Fin n) (Fin n) ℝ :=
  1 - Matrix.vecMulVec (mulOf M i j) (Pi.single i 1)

theorem elimMat_mul (M N : Matrix (Fin n) (Fin n) ℝ) (i j : Fin n) (a b : Fin n) :
    (elimMat M i j * N) a b = N a b - mulOf M i j a * N i b := by
  unfold elimMat
  rw [Matrix.sub_mul, Matrix.one_mul, Matrix.sub_apply, Matrix.vecMulVec_mul]
  simp [Matrix.vecMulVec_apply]

theorem elimTo_full (M N : Matrix (Fin n) (Fin n) ℝ) (i j : Fin n) :
    elimTo M N i j n = elimMat M i j * N := by
  ext a b
  rw [elimMat_mul]
  simp only [elimTo, Matrix.of_apply, mulOf]
  by_cases h : a ≠ i ∧ 1 / 1000000 ≤ |M a j|
  · rw [if_pos ⟨a.2, h⟩, if_pos h]
  · rw [if_neg (fun hh => h hh.2), if_neg h]
    simp

theorem mulOf_self (M : Matrix (Fin n) (Fin n) ℝ) (i j : Fin n) : mulOf M i j i = 0 := by
  simp [mulOf]

theorem elimMat_isUnit (M : Matrix (Fin n) (Fin n) ℝ) (i j : Fin n) : IsUnit (elimMat M i j) := by
  have h : elimMat M i j * (1 + Matrix.vecMulVec (mulOf M i j) (Pi.single i 1)) = 1 := by
    ext a b
    rw [elimMat_mul]
    simp [Matrix.vecMulVec_apply, mulOf_self, Matrix.one_apply, Pi.single_apply]
    by_cases hb : b = i
    · subst hb
      simp
    · rw [if_neg hb]
      simp [Ne.symm hb]
  exact IsUnit.of_mul_eq_one _ h

theorem mtxGaussElimD_eq (x0 : XR) (M N : Matrix (Fin n) (Fin n) ℝ) (t u : List XR) (i j : Fin n) :
    mtxGaussElimD x0 (mat M t) (mat N u) i j = if |M i j| < 1 / 1000000 then ok (0, mat M t, mat N u)
      else ok (0, mat (elimMat M i j * M) t, mat (elimMat M i j * N) u) := by
  unfold mtxGaussElimD gaussElimBody
  rw [mat_get]
  simp only [ok_bind, ne_eq, not_true_eq_false, if_false]
  by_cases h : |M i j| < 1 / 1000000
  · rw [if_pos ((isZeroE_fin _).2 h), if_pos h]
    rfl
  · rw [if_neg (by rw [isZeroE_fin]; exact h), if_neg h]
    have := gaussElimLoop_eq M N t u i j (by
      intro h0
      rw [h0] at h
      simp at h) n 0 x0 (by omega) (by omega)
    rw [elimTo_zero, elimTo_zero, elimTo_full, elimTo_full] at this
    exact this

/-- The normalisation step as a matrix. -/
noncomputable def normMat (i : Fin n) (x : ℝ) : Matrix (Fin n) (Fin n) ℝ :=
  Matrix.diagonal fun a => if a = i then 1 / x else 1

theorem normMat_mul (i : Fin n) (x : ℝ) (N : Matrix (Fin n) (Fin n) ℝ) (a b : Fin n) :
    (normMat i x * N) a b = if a = i then N i b / x else N a b := by
  unfold normMat
  rw [Matrix.diagonal_mul]
  split_ifs with h
  · subst h
    ring
  · ring

theorem normMat_isUnit (i : Fin n) {x : ℝ} (hx : x ≠ 0) : IsUnit (normMat i x) := by
  have h : normMat i x * Matrix.diagonal (fun a => if a = i then x else 1) = 1 := by
    unfold normMat
    rw [Matrix.diagonal_mul_diagonal, ← Matrix.diagonal_one]
    congr 1
    funext a
    split_ifs
    · field_simp
    · simp
  exact IsUnit.of_mul_eq_one _ h

theorem updateRow_eq_normMat (i : Fin n) (x : ℝ) (N : Matrix (Fin n) (Fin n) ℝ) :
    N.updateRow i ((1 / x) • N i) = normMat i x * N := by
  ext a b
  rw [normMat_mul]
  by_cases h : a = i
  · subst h
    rw [Matrix.updateRow_self, if_pos rfl]
    simp
    ring
  · rw [Matrix.updateRow_ne h, if_neg h]

theorem mtxNormElemD_eq (x0 : XR) (M N : Matrix (Fin n) (Fin n) ℝ) (t u : List XR) (i j : Fin n) :
    mtxNormElemD x0 (mat M t) (mat N u) i j = if |M i j| < 1 / 1000000 then ok (0, mat M t, mat N u)
      else ok (0, mat (normMat i (M i j) * M) t, mat (normMat i (M i j) * N) u) := by
  unfold mtxNormElemD normElemBody
  rw [mat_get]
  simp only [ok_bind, ne_eq, not_true_eq_false, if_false]
  by_cases h : |M i j| < 1 / 1000000
  · rw [if_pos ((isZeroE_fin _).2 h), if_pos h]
    rfl
  · have h0 : M i j ≠ 0 := by
      intro h0
      rw [h0] at h
      simp at h
    rw [if_neg (by rw [isZeroE_fin]; exact h), if_neg h, XR.lit_eq, Rat.cast_one, XR.fin_div h0,
      (mtx_row_ops_real M t i i _).2.2]
    simp only [ok_bind, not_true_eq_false, if_false]
    rw [(mtx_row_ops_real N u i i _).2.2]
    simp only [ok_bind, not_true_eq_false, if_false]
    rw [updateRow_eq_normMat, updateRow_eq_normMat]
    rfl

theorem transvection_mul_eq (k q : Fin n) (c : ℝ) (N : Matrix (Fin n) (Fin n) ℝ) (a b : Fin n) :
    (Matrix.transvection k q c * N) a b = if a = k then N k b + c * N q b else N a b := by
  by_cases h : a = k
  · subst h
    rw [Matrix.transvection_mul_apply_same, if_pos rfl]
  · rw [Matrix.transvection_mul_apply_of_ne _ _ _ _ h, if_neg h]

theorem updateRow_eq_transvection' (k q : Fin n) (N : Matrix (Fin n) (Fin n) ℝ) :
    N.updateRow k (N k + N q) = Matrix.transvection k q 1 * N := by
  ext a b
  rw [transvection_mul_eq]
  by_cases h : a = k
  · subst h
    rw [Matrix.updateRow_self, if_pos rfl]
    simp
  · rw [Matrix.updateRow_ne h, if_neg h]

/-- `gaussPivot` adds a suitable row, if there is one. -/
theorem gaussPivot_spec (M N : Matrix (Fin n) (Fin n) ℝ) (t u v : List XR) (y : XR) (k : Fin n)
    (hv : v.length = n) :
    (gaussPivot n k v y (mat M t) (mat N u)).sat fun r => r.1.length = n ∧
      (((r.2.2.1 = mat M t ∧ r.2.2.2 = mat N u) ∧
        ∀ q : Fin n, |M q k| < 1 / 1000000 ∨ (q < k ∧ 1 / 1000000 ≤ |M q q|)) ∨
      ∃ q : Fin n, 1 / 1000000 ≤ |M q k| ∧ ¬(q < k ∧ 1 / 1000000 ≤ |M q q|) ∧
        r.2.2.1 = mat (Matrix.transvection k q 1 * M) t ∧ r.2.2.2 = mat (Matrix.transvection k q 1 * N) u) := by
  unfold gaussPivot
  have hcol : mtxGetCol (mat M t) k v = ok (0, arr (fun i => M i k) []) := by
    unfold mat
    rw [mtxOf_eq, mkM_getCol _ _ _ k.2 (by omega),
      range_map_eq_ofFn (x := fun i : Fin n => XR.fin (M i k)) (by simp)]
    simp [arr, hv]
  rw [hcol]
  simp only [ok_bind]
  have hlen : (arr (fun i => M i k) []).length = n := by simp [arr]
  have hloop := forRet_sat (n := n) (ρ := List XR × XR × Mtx XR × Mtx XR)
    (f := fun q (y : XR) => do
      let (_, y) ← mtxGet (mat M t) q q y
      let vq ← rd (arr (fun i => M i k) []) q
      if isNonzeroE vq then
        if q < k ∧ isNonzeroE y = true then return Ctl.next y
        else do
          let (_, mg) ← mtxSumRowsD (mat M t) k q
          let (_, mi) ← mtxSumRowsD (mat N u) k q
          return Ctl.ret (arr (fun i => M i k) [], y, mg, mi)
      else return Ctl.next y) (s := y)
    (fun m _ => ∀ q : Fin n, q.val < m → |M q k| < 1 / 1000000 ∨ (q < k ∧ 1 / 1000000 ≤ |M q q|))
    (fun r => r.1.length = n ∧ ∃ q : Fin n, 1 / 1000000 ≤ |M q k| ∧ ¬(q < k ∧ 1 / 1000000 ≤ |M q q|) ∧
        r.2.2.1 = mat (Matrix.transvection k q 1 * M) t ∧ r.2.2.2 = mat (Matrix.transvection k q 1 * N) u)
    (by intro q hq; omega) (by
      rintro m hm y ih
      obtain ⟨q, rfl⟩ : ∃ q : Fin n, q.val = m := ⟨⟨m, hm⟩, rfl⟩
      dsimp only
      rw [mat_get]
      simp only [ok_bind]
      have hrd : rd (arr (fun i => M i k) []) q.val = ok (XR.fin (M q k)) := by
        rw [rd_lt (by simp [arr])]
        simp [arr]
      rw [hrd]
      simp only [ok_bind]
      have hstep : (|M q k| < 1 / 1000000 ∨ (q < k ∧ 1 / 1000000 ≤ |M q q|)) →
          ∀ q' : Fin n, q'.val < q.val + 1 → |M q' k| < 1 / 1000000 ∨ (q' < k ∧ 1 / 1000000 ≤ |M q' q'|) := by
        intro h q' hq'
        rcases Nat.lt_succ_iff_lt_or_eq.1 hq' with h1 | h1
        · exact ih q' h1
        · rw [Fin.ext h1]
          exact h
      by_cases h1 : 1 / 1000000 ≤ |M q k|
      · rw [if_pos ((isNonzeroE_fin _).2 h1)]
        by_cases h2 : q < k ∧ 1 / 1000000 ≤ |M q q|
        · rw [if_pos ⟨h2.1, (isNonzeroE_fin _).2 h2.2⟩]
          simp only [pure_eq, sat_ok]
          exact hstep (Or.inr h2)
        · rw [if_neg (by rw [isNonzeroE_fin]; exact h2), (mtx_row_ops_real M t k q 0).1]
          simp only [ok_bind]
          rw [(mtx_row_ops_real N u k q 0).1]
          simp only [ok_bind, pure_eq, sat_ok]
          rw [updateRow_eq_transvection', updateRow_eq_transvection']
          exact ⟨hlen, q, h1, h2, rfl, rfl⟩
      · rw [if_neg (by rw [isNonzeroE_fin]; exact h1)]
        simp only [pure_eq, sat_ok]
        exact hstep (Or.inl (not_le.1 h1)))
  obtain ⟨c, hc, hP⟩ := hloop
  rw [hc]
  rcases c with y' | r
  · rw [ok_bind]
    exact (sat_ok _ _).2 ⟨hlen, Or.inl ⟨⟨rfl, rfl⟩, fun q => hP q q.2⟩⟩
  · simp only [ok_bind, pure_eq, sat_ok]
    exact ⟨hP.1, Or.inr hP.2⟩

/-- The pivot search, when it is started, and its result: the matrix by which both matrices are multiplied. -/
def PivotRow (M : Matrix (Fin n) (Fin n) ℝ) (k : Fin n) (Q : Matrix (Fin n) (Fin n) ℝ) : Prop :=
  (1 / 1000000 ≤ |M k k| ∧ Q = 1) ∨
  (|M k k| < 1 / 1000000 ∧ Q = 1 ∧ ∀ q : Fin n, |M q k| < 1 / 1000000 ∨ (q < k ∧ 1 / 1000000 ≤ |M q q|)) ∨
  (|M k k| < 1 / 1000000 ∧ ∃ q : Fin n, q ≠ k ∧ 1 / 1000000 ≤ |M q k| ∧ ¬(q < k ∧ 1 / 1000000 ≤ |M q q|) ∧
    Q = Matrix.transvection k q 1)

theorem PivotRow.isUnit {M Q : Matrix (Fin n) (Fin n) ℝ} {k : Fin n} (h : PivotRow M k Q) : IsUnit Q := by
  rcases h with ⟨_, rfl⟩ | ⟨_, rfl, _⟩ | ⟨_, q, hq, _, _, rfl⟩
  · exact isUnit_one
  · exact isUnit_one
  · rw [Matrix.isUnit_iff_isUnit_det, Matrix.det_transvection_of_ne _ _ hq.symm]
    exact isUnit_one

/-- One step of Gauss-Jordan elimination, after the pivot search, as a matrix. -/
noncomputable def stepMat (M : Matrix (Fin n) (Fin n) ℝ) (k : Fin n) : Matrix (Fin n) (Fin n) ℝ :=
  if |M k k| < 1 / 1000000 then 1 else normMat k (M k k) * elimMat M k k

theorem ne_zero_of_not_small {x : ℝ} (h : ¬|x| < 1 / 1000000) : x ≠ 0 := by
  intro h0
  rw [h0] at h
  simp at h

theorem stepMat_isUnit (M : Matrix (Fin n) (Fin n) ℝ) (k : Fin n) : IsUnit (stepMat M k) := by
  unfold stepMat
  split_ifs with h
  · exact isUnit_one
  · exact (normMat_isUnit k (ne_zero_of_not_small h)).mul (elimMat_isUnit M k k)

/-- One pass of the loop of `zsl_mtx_gauss_reduc`. -/
theorem gaussReducStep_spec (junk : ℕ → XR) (M N : Matrix (Fin n) (Fin n) ℝ) (t u v : List XR) (x y : XR)
    (k : Fin n) (hv : v.length = n) :
    (gaussReducStep junk n k ⟨x, y, v, mat M t, mat N u⟩).sat fun s => s.v.length = n ∧
      ∃ Q, PivotRow M k Q ∧ s.mg = mat (stepMat (Q * M) k * (Q * M)) t ∧
        s.mi = mat (stepMat (Q * M) k * (Q * N)) u := by
  unfold gaussReducStep
  dsimp only
  rw [mat_get]
  simp only [ok_bind]
  have hpiv : (if isZeroE (XR.fin (M k k)) = true then gaussPivot n k v y (mat M t) (mat N u)
      else ok (v, y, mat M t, mat N u)).sat fun r => r.1.length = n ∧ ∃ Q, PivotRow M k Q ∧
        r.2.2.1 = mat (Q * M) t ∧ r.2.2.2 = mat (Q * N) u := by
    by_cases h : |M k k| < 1 / 1000000
    · rw [if_pos ((isZeroE_fin _).2 h)]
      refine (gaussPivot_spec M N t u v y k hv).mono ?_
      rintro r ⟨h1, (⟨⟨h2, h3⟩, h4⟩ | ⟨q, h2, h3, h4, h5⟩)⟩
      · exact ⟨h1, 1, Or.inr (Or.inl ⟨h, rfl, h4⟩), by rw [h2, one_mul], by rw [h3, one_mul]⟩
      · refine ⟨h1, _, Or.inr (Or.inr ⟨h, q, ?_, h2, h3, rfl⟩), h4, h5⟩
        rintro rfl
        linarith
    · rw [if_neg (by rw [isZeroE_fin]; exact h)]
      rw [sat_ok]
      exact ⟨hv, 1, Or.inl ⟨not_lt.1 h, rfl⟩, by rw [one_mul], by rw [one_mul]⟩
  obtain ⟨⟨v', y', mg, mi⟩, hr, hl, Q, hQ, hmg, hmi⟩ := hpiv
  dsimp only at hl hmg hmi
  rw [hr]
  simp only [ok_bind]
  rw [hmg, hmi, mtxGaussElimD_eq]
  by_cases h : |(Q * M) k k| < 1 / 1000000
  · rw [if_pos h]
    simp only [ok_bind]
    rw [mtxNormElemD_eq, if_pos h]
    simp only [ok_bind, pure_eq, sat_ok]
    refine ⟨hl, Q, hQ, ?_, ?_⟩ <;> rw [stepMat, if_pos h, one_mul]
  · rw [if_neg h]
    simp only [ok_bind]
    have hkk : (elimMat (Q * M) k k * (Q * M)) k k = (Q * M) k k := by
      rw [elimMat_mul, mulOf_self]
      ring
    rw [mtxNormElemD_eq, hkk, if_neg h]
    simp only [ok_bind, pure_eq, sat_ok]
    refine ⟨hl, Q, hQ, ?_, ?_⟩ <;> rw [stepMat, if_neg h, Matrix.mul_assoc]

/-- The loop of `zsl_mtx_gauss_reduc`, with any invariant that the steps preserve. -/
theorem mtxGaussReduc_spec (junk : ℕ → XR) (A B C : Matrix (Fin n) (Fin n) ℝ) (t u w : List XR) (hn : 0 < n)
    (I : ℕ → Matrix (Fin n) (Fin n) ℝ → Matrix (Fin n) (Fin n) ℝ → Prop) (h0 : I 0 A B)
    (hI : ∀ (k : Fin n) M N Q, I k M N → PivotRow M k Q →
      I (k.val + 1) (stepMat (Q * M) k * (Q * M)) (stepMat (Q * M) k * (Q * N))) :
    ∃ M N, I n M N ∧ mtxGaussReduc junk (mat A t) (mat B u) (mat C w) = ok (0, mat N u, mat M w) := by
  unfold mtxGaussReduc
  rw [if_neg (by simp; omega)]
  have hcopy : mtxCopy (mat C w) (mat A t) = ok (0, mat A w) := mtx_copy_correct _ _ _ _
  rw [hcopy]
  simp only [ok_bind, mat_rows]
  have hloop := forN_sat (n := n) (f := fun k s => gaussReducStep junk n k s)
    (s := ⟨junk 0, junk 0, junkArr junk n, mat A w, mat B u⟩)
    (fun k s => s.v.length = n ∧ ∃ M N, I k M N ∧ s.mg = mat M w ∧ s.mi = mat N u)
    ⟨by simp [junkArr], A, B, h0, rfl, rfl⟩ (by
      rintro k hk ⟨x, y, v, mg, mi⟩ ⟨hv, M, N, hMN, hmg, hmi⟩
      dsimp only at hv hmg hmi ⊢
      rw [hmg, hmi]
      refine (gaussReducStep_spec junk M N w u v x y ⟨k, hk⟩ hv).mono ?_
      rintro s ⟨h1, Q, hQ, h2, h3⟩
      exact ⟨h1, _, _, hI ⟨k, hk⟩ M N Q hMN hQ, h2, h3⟩)
  obtain ⟨s, hs, _, M, N, hMN, hmg, hmi⟩ := hloop
  refine ⟨M, N, hMN, ?_⟩
  rw [hs]
  simp only [ok_bind, pure_eq]
  rw [hmg, hmi]

end Verif
