import Mathlib.Analysis.Matrix.LDL
import Verif.Lemmas.CholRound

/-!
# The Cholesky factorisation in floating point (C158)
-/

namespace Verif

open Out

variable {n : ℕ}

/-- The entries of a matrix, zero outside. -/
def entries (A : Matrix (Fin n) (Fin n) ℝ) (i j : ℕ) : ℝ := if h : i < n ∧ j < n then A ⟨i, h.1⟩ ⟨j, h.2⟩ else 0

@[simp] theorem entries_fin (A : Matrix (Fin n) (Fin n) ℝ) (i j : Fin n) : entries A i j = A i j := by simp [entries]

theorem entries_lt (A : Matrix (Fin n) (Fin n) ℝ) {i j : ℕ} (hi : i < n) (hj : j < n) : entries A i j = A ⟨i, hi⟩ ⟨j, hj⟩ := by
  simp [entries, hi, hj]

theorem matF_entries (F : Rounding) (A : Matrix (Fin n) (Fin n) ℝ) (t : List (FX F)) :
    matF F A t = mtxOf (Matrix.of fun i j : Fin n => FX.of F (entries A i j)) t := by
  unfold matF
  congr 1
  ext i j
  simp

/-- The run of the factorisation for a symmetric matrix. -/
theorem cholesky_run (F : Rounding) (x0 : FX F) (A : Matrix (Fin n) (Fin n) ℝ) (hA : A.IsSymm) (B : Matrix (Fin n) (Fin n) (FX F))
    (t u : List (FX F)) {c' : ℕ → ℕ → FX F} (hc : CholRec (fun i j => FX.of F (entries A i j)) c') :
    mtxCholesky x0 (matF F A t) (mtxOf B u) = ok (0, mtxOf (Matrix.of fun i j : Fin n => c' i j) u) := by
  rw [matF_entries]
  have hs : ∀ i j : Fin n, CReal.ne (FX.of F (entries A i j)) (FX.of F (entries A j i)) = false := by
    intro i j
    rw [entries_fin, entries_fin, ← Bool.not_eq_true, FX.of_ne, not_not]
    exact hA.apply j i
  exact mtxCholesky_gen x0 (fun i j => FX.of F (entries A i j)) c' B t u hs hc

/-- The sum up to the diagonal is the sum over the whole row. -/
theorem row_sum (f : Fin n → ℝ) {g : ℕ → ℝ} (hg : ∀ k : Fin n, g k = f k) (j : Fin n) (hf : ∀ k, j < k → f k = 0) :
    ∑ k ∈ Finset.range (j + 1), g k = ∑ k, f k := by
  have h1 : ∑ k, f k = ∑ k ∈ Finset.range n, g k := by
    rw [Finset.sum_range]
    exact Finset.sum_congr rfl fun k _ => (hg k).symm
  rw [h1]
  refine Finset.sum_subset (Finset.range_subset_range.2 (by omega)) fun k hk hk' => ?_
  rw [Finset.mem_range] at hk hk'
  rw [show k = ((⟨k, hk⟩ : Fin n) : ℕ) from rfl, hg]
  exact hf _ (Fin.lt_def.2 (by simp; omega))

/-- C158. Whenever the factor that `zsl_mtx_cholesky` stores for a symmetric matrix `A` consists of numbers and has a positive diagonal, it
is lower triangular and its product with its transpose is `A` up to `n + 2` roundings of the products that make it up: the result is the
exact factor of a matrix very close to `A`. Any size, any rounding. -/
theorem mtx_cholesky_backward (F : Rounding) (x0 : FX F) (A C : Matrix (Fin n) (Fin n) ℝ) (hA : A.IsSymm) (B : Matrix (Fin n) (Fin n) (FX F))
    (t u : List (FX F)) (hrun : mtxCholesky x0 (matF F A t) (mtxOf B u) = ok (0, matF F C u)) (hpos : ∀ j, 0 < C j j) :
    (∀ i j, i < j → C i j = 0) ∧ ∀ i j, |(C * C.transpose) i j - A i j| ≤ gam F.u (n + 2) * ∑ k, |C i k| * |C j k| := by
  obtain ⟨c', hc⟩ := exists_cholRec (fun i j => FX.of F (entries A i j))
  rw [cholesky_run F x0 A hA B t u hc, matF_entries] at hrun
  simp only [ok.injEq, Prod.mk.injEq, true_and] at hrun
  have hcc : ∀ i j : Fin n, c' i j = FX.of F (entries C i j) := fun i j => congrFun (congrFun (mtxOf_inj hrun).1 i) j
  have hcn : ∀ {i j : ℕ}, i < n → j < n → c' i j = FX.of F (entries C i j) := fun hi hj => hcc ⟨_, hi⟩ ⟨_, hj⟩
  have hlow : ∀ i j, i < j → C i j = 0 := by
    intro i j hij
    have h1 := hcc i j
    rw [hc.up i j hij, FX.lit_eq, FX.of_inj, entries_fin] at h1
    rw [← h1]
    simp [F.rnd_zero]
  have key : ∀ i j : Fin n, j ≤ i → |(C * C.transpose) i j - A i j| ≤ gam F.u (n + 2) * ∑ k, |C i k| * |C j k| := by
    intro i j hij
    have h := chol_entry_err (c := entries C) hc j.2 (show (j : ℕ) ≤ i from hij) (fun k hk => hcn i.2 (by omega)) (fun k hk => hcn j.2 (by omega)) (hcn j.2 j.2)
      (by rw [entries_fin]; exact hpos j) (hcn i.2 j.2)
    rw [row_sum (fun k => C i k * C j k) (g := fun k => entries C i k * entries C j k) (fun k => by simp) j (fun k hk => by rw [hlow j k hk, mul_zero]),
      row_sum (fun k => |C i k| * |C j k|) (g := fun k => |entries C i k| * |entries C j k|) (fun k => by simp) j
        (fun k hk => by rw [hlow j k hk, abs_zero, mul_zero]), entries_fin, abs_sub_comm] at h
    exact h
  refine ⟨hlow, fun i j => ?_⟩
  rcases le_total j i with h | h
  · exact key i j h
  · have := key j i h
    have e1 : (C * C.transpose) i j = (C * C.transpose) j i := by
      simp only [Matrix.mul_apply, Matrix.transpose_apply]
      exact Finset.sum_congr rfl fun k _ => mul_comm _ _
    have e2 : ∑ k, |C i k| * |C j k| = ∑ k, |C j k| * |C i k| := Finset.sum_congr rfl fun k _ => mul_comm _ _
    rw [e1, e2, ← hA.apply i j]
    exact this

/-- C158. For a matrix that is positive definite by a margin, `zsl_mtx_cholesky` stores a factor of finite numbers with positive diagonal:
the quadratic form stays above `lam` times that of the diagonal, for a `lam` of the size `2 n` times the error of `n + 2` roundings. -/
theorem mtx_cholesky_success (F : Rounding) (x0 : FX F) (A : Matrix (Fin n) (Fin n) ℝ) (hA : A.IsSymm) (B : Matrix (Fin n) (Fin n) (FX F))
    (t u : List (FX F)) (lam : ℝ) (hlam : 0 < lam) (hg : gam F.u (n + 2) < 1) (hl : 2 * n * gam F.u (n + 2) ≤ lam * (1 - gam F.u (n + 2)))
    (hd : ∀ i, 0 < A i i) (hPD : ∀ x : Fin n → ℝ, lam * ∑ i, A i i * x i ^ 2 ≤ ∑ i, ∑ j, A i j * (x i * x j)) :
    ∃ C : Matrix (Fin n) (Fin n) ℝ, mtxCholesky x0 (matF F A t) (mtxOf B u) = ok (0, matF F C u) ∧ ∀ j, 0 < C j j := by
  have u0 := F.u_nonneg
  have u1 := F.u_lt
  have g0 := gam_nonneg u0 u1 (n + 2)
  set γ := gam F.u (n + 2) with hγ
  obtain ⟨c', hc⟩ := exists_cholRec (fun i j => FX.of F (entries A i j))
  have hsym : ∀ i j, entries A i j = entries A j i := by
    intro i j
    unfold entries
    by_cases h : i < n ∧ j < n
    · rw [dif_pos h, dif_pos h.symm]
      exact hA.apply _ _
    · rw [dif_neg h, dif_neg fun h' => h h'.symm]
  -- the columns before `k` consist of numbers, with a positive diagonal
  have key : ∀ k ≤ n, ∃ c : ℕ → ℕ → ℝ, (∀ i < n, ∀ j < k, c' i j = FX.of F (c i j)) ∧ (∀ j < k, 0 < c j j) := by
    intro k
    induction k with
    | zero => exact fun _ => ⟨fun _ _ => 0, fun _ _ j hj => absurd hj (by omega), fun j hj => absurd hj (by omega)⟩
    | succ k ih =>
      intro hk
      obtain ⟨c, h1, h2⟩ := ih (by omega)
      obtain ⟨s, hs, hp⟩ := chol_pivot hc (c := c) (j := k) fun m hm => h1 k (by omega) m hm
      have hup : ∀ i j, i < j → i < n → j < k → c i j = 0 := by
        intro i j hij hi hj
        have := h1 i hi j hj
        rw [hc.up i j hij, FX.lit_eq, FX.of_inj] at this
        rw [← this]
        simp [F.rnd_zero]
      have hent : ∀ i j, j ≤ i → i < n → j < k →
          |entries A i j - ∑ m : Fin k, c i m * c j m| ≤ γ * ∑ m : Fin k, |c i m| * |c j m| := by
        intro i j hij hi hj
        have h := chol_entry_err (n := n) (c := c) hc (by omega) hij (fun m hm => h1 i hi m (by omega)) (fun m hm => h1 j (by omega) m (by omega))
          (h1 j (by omega) j hj) (h2 j hj) (h1 i hi j hj)
        rw [row_sum (n := k) (fun m => c i m * c j m) (g := fun m => c i m * c j m) (fun m => rfl) ⟨j, hj⟩
          (fun m hm => by rw [hup j m hm (by omega) m.2, mul_zero]),
          row_sum (n := k) (fun m => |c i m| * |c j m|) (g := fun m => |c i m| * |c j m|) (fun m => rfl) ⟨j, hj⟩
          (fun m hm => by rw [hup j m hm (by omega) m.2, abs_zero, mul_zero])] at h
        exact h
      have hcore := chol_core (γ := γ) (lam := lam) (N := n) (d := entries A k k) (Matrix.of fun i j : Fin k => c i j)
        (Matrix.of fun i j : Fin k => entries A i j) (fun m => c k m) (fun m => entries A k m) (by
          rw [Matrix.det_of_isLowerTriangular]
          · exact Finset.prod_ne_zero_iff.2 fun i _ => (h2 i i.2).ne'
          · intro i j hij
            exact hup i j (by simpa using hij) (by omega) j.2) g0 hg (by exact_mod_cast (by omega : k ≤ n)) hl (by
          intro y
          have h := hPD fun i => if h : i.val < k then y ⟨i, h⟩ else if i.val = k then -1 else 0
          have conv : ∀ f : ℕ → ℝ, ∑ i : Fin n, (if i.val < k + 1 then f i else 0) = ∑ i : Fin k, f i + f k := by
            intro f
            rw [← Finset.sum_range (fun i => if i < k + 1 then f i else 0), ← Finset.sum_range (fun i => f i), ← Finset.sum_range_succ]
            rw [← Finset.sum_subset (Finset.range_subset_range.2 hk)]
            · exact Finset.sum_congr rfl fun i hi => by rw [if_pos (by simpa using hi)]
            · intro i _ hi
              rw [if_neg (by simpa using hi)]
          set z : ℕ → ℝ := fun i => if h : i < k then y ⟨i, h⟩ else if i = k then -1 else 0 with hz
          have hzk : z k = -1 := by simp [hz]
          have hzi : ∀ i : Fin k, z i = y i := fun i => by simp [hz]
          have hz0 : ∀ i, k < i → z i = 0 := fun i hi => by simp [hz, show ¬ i < k by omega, show i ≠ k by omega]
          change lam * ∑ i : Fin n, A i i * z i ^ 2 ≤ ∑ i : Fin n, ∑ j : Fin n, A i j * (z i * z j) at h
          have e1 : ∑ i : Fin n, A i i * z i ^ 2 = ∑ i : Fin k, entries A i i * y i ^ 2 + entries A k k := by
            rw [Finset.sum_congr rfl (g := fun i : Fin n => if i.val < k + 1 then entries A i i * z i ^ 2 else 0)]
            · rw [conv fun i => entries A i i * z i ^ 2, hzk]
              simp only [hzi]
              ring
            · intro i _
              rw [entries_fin]
              split_ifs with h
              · rfl
              · rw [hz0 i (by omega)]
                ring
          have e3 : ∀ i : ℕ, ∑ j : Fin n, entries A i j * (z i * z j) = ∑ j : Fin k, entries A i j * (z i * y j) - entries A i k * z i := by
            intro i
            rw [Finset.sum_congr rfl (g := fun j : Fin n => if j.val < k + 1 then entries A i j * (z i * z j) else 0)]
            · rw [conv fun j => entries A i j * (z i * z j), hzk]
              simp only [hzi]
              ring
            · intro j _
              split_ifs with h
              · rfl
              · rw [hz0 j (by omega)]
                ring
          have e2 : ∑ i : Fin n, ∑ j : Fin n, A i j * (z i * z j) =
              ∑ i : Fin k, ∑ j : Fin k, entries A i j * (y i * y j) - 2 * ∑ i : Fin k, entries A k i * y i + entries A k k := by
            rw [Finset.sum_congr rfl (g := fun i : Fin n => if i.val < k + 1 then
              (∑ j : Fin k, entries A i j * (z i * y j) - entries A i k * z i) else 0)]
            · rw [conv fun i => (∑ j : Fin k, entries A i j * (z i * y j) - entries A i k * z i), hzk, Finset.sum_sub_distrib]
              simp only [hzi]
              have e4 : ∑ i : Fin k, entries A i k * y i = ∑ i : Fin k, entries A k i * y i := Finset.sum_congr rfl fun i _ => by rw [hsym]
              have e5 : ∑ j : Fin k, entries A k j * (-1 * y j) = -∑ j : Fin k, entries A k j * y j := by
                rw [← Finset.sum_neg_distrib]
                exact Finset.sum_congr rfl fun i _ => by ring
              rw [e4, e5]
              ring
            · intro i _
              have := e3 i
              simp only [entries_fin] at this
              rw [this]
              split_ifs with h
              · rfl
              · rw [hz0 i (by omega)]
                simp
          rw [e1, e2] at h
          exact h) (by
          intro i j
          simp only [Matrix.of_apply]
          rcases le_total j i with h | h
          · exact hent i j h (by omega) j.2
          · have := hent j i h (by omega) i.2
            rw [hsym] at this
            simpa only [mul_comm] using this) (by
          intro i
          simp only [Matrix.of_apply]
          have := hent k i (by omega) (by omega) i.2
          simpa only [mul_comm] using this)
      have hpiv : 0 < entries A k k - ∑ m ∈ Finset.range k, c k m * c k m * s m := by
        have hle : ∑ m ∈ Finset.range k, c k m * c k m * s m ≤ (1 + γ) * ∑ m : Fin k, c k m ^ 2 := by
          rw [Finset.sum_range, Finset.mul_sum]
          refine Finset.sum_le_sum fun m _ => ?_
          have h3 := (abs_le.1 (((hs m m.2).mono u0 u1 (show k ≤ n + 2 by omega)).abs_sub_one u0 u1)).2
          rw [← hγ] at h3
          nlinarith [mul_self_nonneg (c k m)]
        have hAk : 0 < entries A k k := by
          rw [entries_lt A (by omega) (by omega)]
          exact hd _
        have h4 : (1 + γ) * ((1 - γ) * ∑ m : Fin k, c k m ^ 2) ≤ (1 + γ) * ((1 - lam) * entries A k k) :=
          mul_le_mul_of_nonneg_left hcore (by linarith)
        have hn1 : (1 : ℝ) ≤ n := by exact_mod_cast (by omega : 1 ≤ n)
        have h5 : 2 * γ < lam * (1 + γ) := by
          rcases g0.eq_or_lt with h | h
          · rw [← h]
            linarith
          · nlinarith
        have h6 : (1 + γ) * ((1 - lam) * entries A k k) < (1 - γ) * entries A k k := by nlinarith
        have h7 : (1 - γ) * ((1 + γ) * ∑ m : Fin k, c k m ^ 2) < (1 - γ) * entries A k k := by linarith
        have := lt_of_mul_lt_mul_left h7 (by linarith)
        linarith
      have hroot : 0 < F.rnd (√(F.rnd (entries A k k - ∑ m ∈ Finset.range k, c k m * c k m * s m))) :=
        F.rnd_pos (Real.sqrt_pos.2 (F.rnd_pos hpiv))
      have hdiag := (hp _ hroot).2 ⟨hpiv, rfl⟩
      generalize F.rnd (√(F.rnd (entries A k k - ∑ m ∈ Finset.range k, c k m * c k m * s m))) = x at *
      -- the new column
      have hcol : ∀ i, ∃ y : ℝ, i < n → c' i k = FX.of F y := by
        intro i
        rcases lt_trichotomy i k with h | h | h
        · refine ⟨F.rnd ((0 : ℚ) : ℝ), fun _ => ?_⟩
          rw [hc.up i k h, FX.lit_eq]
        · exact ⟨x, fun _ => h ▸ hdiag⟩
        · by_cases hi : i < n
          · obtain ⟨t, -, e⟩ := chol_below hc (c := fun a b => if a = k ∧ b = k then x else c a b) h
              (fun m hm => by rw [if_neg (by omega)]; exact h1 i hi m hm)
              (fun m hm => by rw [if_neg (by omega)]; exact h1 k (by omega) m hm) (by rw [if_pos ⟨rfl, rfl⟩]; exact hdiag)
              (by rw [if_pos ⟨rfl, rfl⟩]; exact hroot)
            exact ⟨_, fun _ => e⟩
          · exact ⟨0, fun h' => absurd h' hi⟩
      choose y hy using hcol
      have hyk : y k = x := by
        have := hy k (by omega)
        rw [hdiag, FX.of_inj] at this
        exact this.symm
      refine ⟨fun i j => if j = k then y i else c i j, fun i hi j hj => ?_, fun j hj => ?_⟩
      · dsimp only
        split_ifs with h
        · rw [h]
          exact hy i hi
        · exact h1 i hi j (by omega)
      · dsimp only
        split_ifs with h
        · rw [h, hyk]
          exact hroot
        · exact h2 j (by omega)
  obtain ⟨c, h1, h2⟩ := key n le_rfl
  refine ⟨Matrix.of fun i j => c i j, ?_, fun j => h2 j j.2⟩
  rw [cholesky_run F x0 A hA B t u hc]
  unfold matF
  congr 3
  ext i j
  exact h1 i i.2 j j.2

/-- C158. Both together: for a matrix that is positive definite by a margin the factor reproduces every element up to a small multiple of the
geometric mean of the two diagonal elements it belongs to. -/
theorem mtx_cholesky_rounding (F : Rounding) (x0 : FX F) (A : Matrix (Fin n) (Fin n) ℝ) (hA : A.IsSymm) (B : Matrix (Fin n) (Fin n) (FX F))
    (t u : List (FX F)) (lam : ℝ) (hlam : 0 < lam) (hg : gam F.u (n + 2) < 1) (hl : 2 * n * gam F.u (n + 2) ≤ lam * (1 - gam F.u (n + 2)))
    (hd : ∀ i, 0 < A i i) (hPD : ∀ x : Fin n → ℝ, lam * ∑ i, A i i * x i ^ 2 ≤ ∑ i, ∑ j, A i j * (x i * x j)) :
    ∃ C : Matrix (Fin n) (Fin n) ℝ, mtxCholesky x0 (matF F A t) (mtxOf B u) = ok (0, matF F C u) ∧ (∀ i j, i < j → C i j = 0) ∧ (∀ j, 0 < C j j) ∧
      ∀ i j, |(C * C.transpose) i j - A i j| ≤ gam F.u (n + 2) / (1 - gam F.u (n + 2)) * √(A i i * A j j) := by
  obtain ⟨C, hrun, hpos⟩ := mtx_cholesky_success F x0 A hA B t u lam hlam hg hl hd hPD
  obtain ⟨hlow, herr⟩ := mtx_cholesky_backward F x0 A C hA B t u hrun hpos
  refine ⟨C, hrun, hlow, hpos, fun i j => (herr i j).trans ?_⟩
  have g0 := gam_nonneg F.u_nonneg F.u_lt (n + 2)
  generalize gam F.u (n + 2) = γ at *
  have hr : ∀ i, ∑ k, C i k ^ 2 ≤ A i i / (1 - γ) := by
    intro i
    have h := (abs_le.1 (herr i i)).2
    have e1 : (C * C.transpose) i i = ∑ k, C i k ^ 2 := by
      simp only [Matrix.mul_apply, Matrix.transpose_apply]
      exact Finset.sum_congr rfl fun k _ => by ring
    have e2 : ∑ k, |C i k| * |C i k| = ∑ k, C i k ^ 2 := Finset.sum_congr rfl fun k _ => by rw [← sq, sq_abs]
    rw [e1, e2] at h
    rw [le_div_iff₀ (by linarith)]
    linarith
  have cs := Real.sum_mul_le_sqrt_mul_sqrt Finset.univ (fun m => |C i m|) (fun m => |C j m|)
  simp only [sq_abs] at cs
  have h2 : √(∑ k, C i k ^ 2) * √(∑ k, C j k ^ 2) ≤ √(A i i * A j j) / (1 - γ) := by
    have h3 := mul_le_mul (Real.sqrt_le_sqrt (hr i)) (Real.sqrt_le_sqrt (hr j)) (Real.sqrt_nonneg _) (Real.sqrt_nonneg _)
    refine h3.trans (le_of_eq ?_)
    rw [← Real.sqrt_mul (div_nonneg (hd i).le (by linarith)), div_mul_div_comm, Real.sqrt_div (mul_nonneg (hd i).le (hd j).le), Real.sqrt_mul_self (by linarith)]
  calc γ * ∑ k, |C i k| * |C j k| ≤ γ * (√(A i i * A j j) / (1 - γ)) := mul_le_mul_of_nonneg_left (cs.trans h2) g0
    _ = _ := by ring

/-- Rounding of a number between 1 and 2 to double precision. -/
theorem nearest_one_two {x : ℝ} (m : ℤ) (h1 : 1 ≤ x) (h2 : x < 2) (h3 : (m : ℝ) - 1 / 2 ≤ x * 2 ^ 52) (h4 : x * 2 ^ 52 < m + 1 / 2) :
    nearest 52 x = m / 2 ^ 52 := by
  rw [nearest_of 52 (L := 0) (by simpa using h1) (by simpa using h2)]
  have e : ((2 : ℝ) ^ ((0 : ℤ) - (52 : ℕ))) = (2 ^ 52)⁻¹ := by norm_num [zpow_neg]
  rw [e, div_inv_eq_mul]
  have : round (x * 2 ^ 52) = m := by
    rw [round_eq, Int.floor_eq_iff]
    constructor <;> linarith
  rw [this, div_eq_mul_inv]

/-- C158. The margin is needed: there is a positive definite matrix of three rows, all of whose elements are double precision numbers, for which
`zsl_mtx_cholesky` in double precision returns 0 and stores a factor that contains NaN. -/
theorem mtx_cholesky_breakdown (lib : Libm) : ∃ A : Matrix (Fin 3) (Fin 3) ℝ, A.PosDef ∧ (∀ i j, nearest 52 (A i j) = A i j) ∧
    ∀ (x0 : FX (nearestRounding 52 lib)) (B : Matrix (Fin 3) (Fin 3) (FX (nearestRounding 52 lib))) (t u : List (FX (nearestRounding 52 lib))),
      ∃ C : Matrix (Fin 3) (Fin 3) (FX (nearestRounding 52 lib)),
        mtxCholesky x0 (matF _ A t) (mtxOf B u) = ok (0, mtxOf C u) ∧ C 2 1 = ⟨XR.nan⟩ := by
  obtain ⟨x, hx⟩ : ∃ x : ℝ, x = 1 + 7 / 2 ^ 29 := ⟨_, rfl⟩
  obtain ⟨y, hy⟩ : ∃ y : ℝ, y = 1 + 7 / 2 ^ 28 + 1 / 2 ^ 52 := ⟨_, rfl⟩
  have r1 : nearest 52 1 = 1 := by
    have := nearest_nat 52 1 (by norm_num)
    simpa using this
  have rx : nearest 52 x = x := by
    rw [nearest_one_two (2 ^ 52 + 7 * 2 ^ 23) (by rw [hx]; norm_num) (by rw [hx]; norm_num) (by rw [hx]; norm_num) (by rw [hx]; norm_num), hx]
    norm_num
  have ry : nearest 52 y = y := by
    rw [nearest_one_two (2 ^ 52 + 7 * 2 ^ 24 + 1) (by rw [hy]; norm_num) (by rw [hy]; norm_num) (by rw [hy]; norm_num) (by rw [hy]; norm_num), hy]
    norm_num
  have rxx : nearest 52 (x * x) = y := by
    rw [nearest_one_two (2 ^ 52 + 7 * 2 ^ 24 + 1) (by rw [hx]; norm_num) (by rw [hx]; norm_num) (by rw [hx]; norm_num) (by rw [hx]; norm_num), hy]
    norm_num
  have hxy : x * x < y := by
    rw [hx, hy]
    norm_num
  have hsym : (!![1, x, 0; x, y, 0; 0, 0, 1] : Matrix (Fin 3) (Fin 3) ℝ).IsSymm := by
    ext i j
    fin_cases i <;> fin_cases j <;> rfl
  refine ⟨!![1, x, 0; x, y, 0; 0, 0, 1], ?_, ?_, ?_⟩
  · refine Matrix.PosDef.of_dotProduct_mulVec_pos ?_ fun v hv => ?_
    · ext i j
      fin_cases i <;> fin_cases j <;> simp
    · have e : dotProduct (star v) (Matrix.mulVec !![1, x, 0; x, y, 0; 0, 0, 1] v) = (v 0 + x * v 1) ^ 2 + (y - x * x) * v 1 ^ 2 + v 2 ^ 2 := by
        simp [dotProduct, Matrix.mulVec, Fin.sum_univ_three]
        ring
      rw [e]
      by_contra hn
      push_neg at hn
      have p1 := sq_nonneg (v 0 + x * v 1)
      have p2 := mul_nonneg (sub_nonneg.2 hxy.le) (sq_nonneg (v 1))
      have p3 := sq_nonneg (v 2)
      have z1 : v 1 = 0 := by
        have : (y - x * x) * v 1 ^ 2 = 0 := by linarith
        rcases mul_eq_zero.1 this with h | h
        · linarith
        · exact pow_eq_zero_iff (by norm_num) |>.1 h
      have z2 : v 2 = 0 := pow_eq_zero_iff (n := 2) (by norm_num) |>.1 (by linarith)
      have z0 : v 0 = 0 := by
        have : (v 0 + x * v 1) ^ 2 = 0 := by linarith
        rw [z1, mul_zero, add_zero] at this
        exact pow_eq_zero_iff (by norm_num) |>.1 this
      apply hv
      funext i
      fin_cases i
      · exact z0
      · exact z1
      · exact z2
  · intro i j
    fin_cases i <;> fin_cases j <;> simp [r1, rx, ry, nearest_zero]
  · intro x0 B t u
    obtain ⟨c', hc⟩ := exists_cholRec (R := FX (nearestRounding 52 lib))
      (fun i j => FX.of _ (entries (!![1, x, 0; x, y, 0; 0, 0, 1] : Matrix (Fin 3) (Fin 3) ℝ) i j))
    refine ⟨_, cholesky_run _ x0 _ hsym B t u hc, ?_⟩
    change c' 2 1 = _
    have hr : (nearestRounding 52 lib).rnd = nearest 52 := rfl
    have hl0 : (lit 0 : FX (nearestRounding 52 lib)) = FX.of _ 0 := by simp [hr, nearest_zero]
    have a00 : entries (!![1, x, 0; x, y, 0; 0, 0, 1] : Matrix (Fin 3) (Fin 3) ℝ) 0 0 = 1 := rfl
    have a10 : entries (!![1, x, 0; x, y, 0; 0, 0, 1] : Matrix (Fin 3) (Fin 3) ℝ) 1 0 = x := rfl
    have a20 : entries (!![1, x, 0; x, y, 0; 0, 0, 1] : Matrix (Fin 3) (Fin 3) ℝ) 2 0 = 0 := rfl
    have a11 : entries (!![1, x, 0; x, y, 0; 0, 0, 1] : Matrix (Fin 3) (Fin 3) ℝ) 1 1 = y := rfl
    have a21 : entries (!![1, x, 0; x, y, 0; 0, 0, 1] : Matrix (Fin 3) (Fin 3) ℝ) 2 1 = 0 := rfl
    have c00 : c' 0 0 = FX.of _ 1 := by
      rw [hc.diag, a00, accSum, hl0, FX.of_sub, hr, sub_zero, r1, FX.of_sqrt (by norm_num), hr, Real.sqrt_one, r1]
    have c10 : c' 1 0 = FX.of _ x := by
      rw [hc.low 1 0 (by norm_num), a10, accSum, hl0, FX.of_sub, hr, sub_zero, rx, c00, FX.of_div one_ne_zero, hr, div_one, rx]
    have c20 : c' 2 0 = FX.of _ 0 := by
      rw [hc.low 2 0 (by norm_num), a20, accSum, hl0, FX.of_sub, hr, sub_zero, nearest_zero, c00, FX.of_div one_ne_zero, hr, zero_div, nearest_zero]
    have c11 : c' 1 1 = FX.of _ 0 := by
      rw [hc.diag, a11, accSum, accSum, hl0, c10, FX.of_mul, FX.of_add, FX.of_sub, hr, rxx, zero_add, ry, sub_self, nearest_zero, FX.of_sqrt le_rfl, hr,
        Real.sqrt_zero, nearest_zero]
    rw [hc.low 2 1 (by norm_num), a21, accSum, accSum, hl0, c20, c10, FX.of_mul, FX.of_add, FX.of_sub, hr, zero_mul, nearest_zero, add_zero, nearest_zero, sub_zero,
      nearest_zero, c11, FX.of_div_zero]
    simp [XR.infOf]

/-- Non-vacuity: in double precision every symmetric matrix of size 100 whose quadratic form stays above a millionth of that of its diagonal is
factored, and the product differs from it by less than `2e-14` in units of the diagonal. -/
example (lib : Libm) (A : Matrix (Fin 100) (Fin 100) ℝ) (hA : A.IsSymm) (hd : ∀ i, 0 < A i i)
    (hPD : ∀ x : Fin 100 → ℝ, 1e-6 * ∑ i, A i i * x i ^ 2 ≤ ∑ i, ∑ j, A i j * (x i * x j)) (x0 : FX (nearestRounding 52 lib)) :
    ∃ C : Matrix (Fin 100) (Fin 100) ℝ, mtxCholesky x0 (matF _ A []) (matF _ (0 : Matrix (Fin 100) (Fin 100) ℝ) []) = ok (0, matF _ C []) ∧
      ∀ i j, |(C * C.transpose) i j - A i j| ≤ 2e-14 * √(A i i * A j j) := by
  have hu : (nearestRounding 52 lib).u = (1 / 2) ^ 53 := rfl
  have hg : gam (nearestRounding 52 lib).u (100 + 2) ≤ 1.14e-14 := by
    rw [hu]
    refine (gam_le (by norm_num) (by norm_num)).trans ?_
    norm_num
  have g0 := gam_nonneg (nearestRounding 52 lib).u_nonneg (nearestRounding 52 lib).u_lt (100 + 2)
  obtain ⟨C, h1, -, -, h2⟩ := mtx_cholesky_rounding (nearestRounding 52 lib) x0 A hA ((0 : Matrix (Fin 100) (Fin 100) ℝ).map (FX.of _)) [] [] 1e-6 (by norm_num)
    (by norm_num at hg ⊢; linarith) (by norm_num at hg ⊢; linarith) hd hPD
  refine ⟨C, h1, fun i j => (h2 i j).trans (mul_le_mul_of_nonneg_right ?_ (Real.sqrt_nonneg _))⟩
  generalize gam (nearestRounding 52 lib).u (100 + 2) = γ at *
  rw [div_le_iff₀ (by norm_num at hg ⊢; linarith)]
  norm_num at hg ⊢
  linarith

/-- The identity satisfies the hypotheses. -/
example : (1 : Matrix (Fin 100) (Fin 100) ℝ).IsSymm ∧ (∀ i, 0 < (1 : Matrix (Fin 100) (Fin 100) ℝ) i i) ∧ ∀ x : Fin 100 → ℝ,
    1e-6 * ∑ i, (1 : Matrix (Fin 100) (Fin 100) ℝ) i i * x i ^ 2 ≤ ∑ i, ∑ j, (1 : Matrix (Fin 100) (Fin 100) ℝ) i j * (x i * x j) := by
  refine ⟨Matrix.transpose_one, fun i => by simp, fun x => ?_⟩
  simp only [Matrix.one_apply, ite_mul, one_mul, zero_mul, Finset.sum_ite_eq, Finset.mem_univ, if_true]
  have : 0 ≤ ∑ i, x i ^ 2 := Finset.sum_nonneg fun _ _ => sq_nonneg _
  have e : ∑ i, x i * x i = ∑ i, x i ^ 2 := Finset.sum_congr rfl fun i _ => by ring
  rw [e]
  norm_num
  linarith

end Verif
