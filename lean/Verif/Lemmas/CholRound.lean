import Mathlib.Algebra.Order.Chebyshev
import Mathlib.LinearAlgebra.Matrix.NonsingularInverse
import Mathlib.LinearAlgebra.Matrix.Block
import Mathlib.Analysis.InnerProductSpace.PiL2
import Verif.Lemmas.CholGen
import Verif.Lemmas.Round

/-!
# The Cholesky factorisation with rounding
-/

namespace Verif

open Out

/-- The squares of the row that is being computed leave room for the pivot: `M` is the factor computed so far, `l` the new row, `b` and `d`
the new row of the matrix. -/
theorem chol_core {k : ℕ} {γ lam N d : ℝ} (M A : Matrix (Fin k) (Fin k) ℝ) (l b : Fin k → ℝ) (hdet : M.det ≠ 0) (h0 : 0 ≤ γ) (h1 : γ < 1)
    (hN : (k : ℝ) ≤ N) (hl : 2 * N * γ ≤ lam * (1 - γ))
    (hPD : ∀ y : Fin k → ℝ, lam * (∑ i, A i i * y i ^ 2 + d) ≤ ∑ i, ∑ j, A i j * (y i * y j) - 2 * ∑ i, b i * y i + d)
    (hE : ∀ i j, |A i j - ∑ m, M i m * M j m| ≤ γ * ∑ m, |M i m| * |M j m|)
    (he : ∀ i, |b i - ∑ m, M i m * l m| ≤ γ * ∑ m, |M i m| * |l m|) : (1 - γ) * ∑ m, l m ^ 2 ≤ (1 - lam) * d := by
  obtain ⟨y, hy⟩ : ∃ y : Fin k → ℝ, ∀ m, ∑ i, y i * M i m = l m := by
    refine ⟨Matrix.vecMul l M⁻¹, fun m => ?_⟩
    have : Matrix.vecMul (Matrix.vecMul l M⁻¹) M = l := by
      rw [Matrix.vecMul_vecMul, Matrix.nonsing_inv_mul _ (isUnit_iff_ne_zero.2 hdet), Matrix.vecMul_one]
    exact congrFun this m
  have cs : ∀ f g : Fin k → ℝ, ∑ m, |f m| * |g m| ≤ √(∑ m, f m ^ 2) * √(∑ m, g m ^ 2) := by
    intro f g
    have := Real.sum_mul_le_sqrt_mul_sqrt Finset.univ (fun m => |f m|) (fun m => |g m|)
    simpa only [sq_abs] using this
  set r : Fin k → ℝ := fun i => √(∑ m, M i m ^ 2) with hr
  have r0 : ∀ i, 0 ≤ r i := fun i => Real.sqrt_nonneg _
  have r2 : ∀ i, r i ^ 2 = ∑ m, M i m ^ 2 := fun i => Real.sq_sqrt (Finset.sum_nonneg fun _ _ => sq_nonneg _)
  set P := √(∑ m, l m ^ 2) with hP
  have P0 : 0 ≤ P := Real.sqrt_nonneg _
  have P2 : P ^ 2 = ∑ m, l m ^ 2 := Real.sq_sqrt (Finset.sum_nonneg fun _ _ => sq_nonneg _)
  set W := ∑ i, r i * |y i| with hW
  have W0 : 0 ≤ W := Finset.sum_nonneg fun i _ => mul_nonneg (r0 i) (abs_nonneg _)
  set Q := ∑ i, A i i * y i ^ 2 with hQ
  have hrA : ∀ i, (1 - γ) * r i ^ 2 ≤ A i i := by
    intro i
    have := (abs_le.1 (hE i i)).1
    have e1 : ∑ m, M i m * M i m = r i ^ 2 := by rw [r2]; exact Finset.sum_congr rfl fun m _ => by ring
    have e2 : ∑ m, |M i m| * |M i m| = r i ^ 2 := by rw [r2]; exact Finset.sum_congr rfl fun m _ => by rw [← sq, sq_abs]
    rw [e1, e2] at this
    linarith
  have hWQ : (1 - γ) * W ^ 2 ≤ N * Q := by
    have h := sq_sum_le_card_mul_sum_sq (s := Finset.univ) (f := fun i => r i * |y i|)
    simp only [Finset.card_univ, Fintype.card_fin] at h
    have h2 : (1 - γ) * ∑ i, (r i * |y i|) ^ 2 ≤ Q := by
      rw [Finset.mul_sum]
      refine Finset.sum_le_sum fun i _ => ?_
      rw [mul_pow, sq_abs, ← mul_assoc]
      exact mul_le_mul_of_nonneg_right (hrA i) (sq_nonneg _)
    have h3 : 0 ≤ ∑ i, (r i * |y i|) ^ 2 := Finset.sum_nonneg fun _ _ => sq_nonneg _
    have hQ0 : 0 ≤ Q := le_trans (mul_nonneg (by linarith) h3) h2
    calc (1 - γ) * W ^ 2 ≤ (1 - γ) * (k * ∑ i, (r i * |y i|) ^ 2) := mul_le_mul_of_nonneg_left h (by linarith)
      _ = k * ((1 - γ) * ∑ i, (r i * |y i|) ^ 2) := by ring
      _ ≤ k * Q := mul_le_mul_of_nonneg_left h2 (Nat.cast_nonneg _)
      _ ≤ N * Q := mul_le_mul_of_nonneg_right hN hQ0
  have T1 : ∑ i, ∑ j, A i j * (y i * y j) ≤ P ^ 2 + γ * W ^ 2 := by
    have e : ∑ i, ∑ j, (∑ m, M i m * M j m) * (y i * y j) = P ^ 2 := by
      rw [P2]
      calc ∑ i, ∑ j, (∑ m, M i m * M j m) * (y i * y j) = ∑ i, ∑ j, ∑ m, (y i * M i m) * (y j * M j m) := by
            refine Finset.sum_congr rfl fun i _ => Finset.sum_congr rfl fun j _ => ?_
            rw [Finset.sum_mul]
            exact Finset.sum_congr rfl fun m _ => by ring
        _ = ∑ m, ∑ i, ∑ j, (y i * M i m) * (y j * M j m) := by
            rw [Finset.sum_congr rfl fun i _ => Finset.sum_comm, Finset.sum_comm]
        _ = ∑ m, l m ^ 2 := by
            refine Finset.sum_congr rfl fun m _ => ?_
            rw [sq, ← hy m, Finset.sum_mul_sum]
    have h2 : ∑ i, ∑ j, (A i j - ∑ m, M i m * M j m) * (y i * y j) ≤ γ * W ^ 2 := by
      have e2 : γ * W ^ 2 = ∑ i, ∑ j, γ * (r i * |y i|) * (r j * |y j|) := by
        rw [hW, sq, Finset.sum_mul_sum, Finset.mul_sum]
        refine Finset.sum_congr rfl fun i _ => ?_
        rw [Finset.mul_sum]
        exact Finset.sum_congr rfl fun j _ => by ring
      rw [e2]
      refine Finset.sum_le_sum fun i _ => Finset.sum_le_sum fun j _ => ?_
      refine (le_abs_self _).trans ?_
      rw [abs_mul, abs_mul]
      have h3 := (hE i j).trans (mul_le_mul_of_nonneg_left (cs (M i) (M j)) h0)
      calc _ ≤ γ * (r i * r j) * (|y i| * |y j|) := mul_le_mul_of_nonneg_right h3 (mul_nonneg (abs_nonneg _) (abs_nonneg _))
        _ = _ := by ring
    have e3 : ∑ i, ∑ j, A i j * (y i * y j) = ∑ i, ∑ j, (∑ m, M i m * M j m) * (y i * y j) +
        ∑ i, ∑ j, (A i j - ∑ m, M i m * M j m) * (y i * y j) := by
      rw [← Finset.sum_add_distrib]
      refine Finset.sum_congr rfl fun i _ => ?_
      rw [← Finset.sum_add_distrib]
      exact Finset.sum_congr rfl fun j _ => by ring
    rw [e3, e]
    linarith
  have T2 : P ^ 2 - γ * (P * W) ≤ ∑ i, b i * y i := by
    have e : ∑ i, (∑ m, M i m * l m) * y i = P ^ 2 := by
      rw [P2]
      calc ∑ i, (∑ m, M i m * l m) * y i = ∑ i, ∑ m, (y i * M i m) * l m := by
            refine Finset.sum_congr rfl fun i _ => ?_
            rw [Finset.sum_mul]
            exact Finset.sum_congr rfl fun m _ => by ring
        _ = ∑ m, l m ^ 2 := by
            rw [Finset.sum_comm]
            refine Finset.sum_congr rfl fun m _ => ?_
            rw [← Finset.sum_mul, hy m, sq]
    have h2 : -(γ * (P * W)) ≤ ∑ i, (b i - ∑ m, M i m * l m) * y i := by
      have e2 : -(γ * (P * W)) = ∑ i, -(γ * P * (r i * |y i|)) := by
        rw [Finset.sum_neg_distrib, ← Finset.mul_sum, ← hW]
        ring
      rw [e2]
      refine Finset.sum_le_sum fun i _ => ?_
      refine le_trans ?_ (neg_abs_le _)
      rw [abs_mul]
      have h3 := (he i).trans (mul_le_mul_of_nonneg_left (cs (M i) l) h0)
      have := mul_le_mul_of_nonneg_right h3 (abs_nonneg (y i))
      have e4 : γ * (√(∑ m, M i m ^ 2) * √(∑ m, l m ^ 2)) * |y i| = γ * P * (r i * |y i|) := by rw [hP, hr]; ring
      linarith
    have e3 : ∑ i, b i * y i = ∑ i, (∑ m, M i m * l m) * y i + ∑ i, (b i - ∑ m, M i m * l m) * y i := by
      rw [← Finset.sum_add_distrib]
      exact Finset.sum_congr rfl fun i _ => by ring
    rw [e3, e]
    linarith
  have hp := hPD y
  rw [← P2]
  have h2 : 2 * γ * W ^ 2 ≤ lam * Q := by
    have hQ0 : 0 ≤ N * Q := le_trans (mul_nonneg (by linarith) (sq_nonneg _)) hWQ
    have a1 : (2 * γ * W ^ 2) * (1 - γ) ≤ 2 * γ * (N * Q) := by nlinarith
    have hQ1 : 0 ≤ Q := Finset.sum_nonneg fun i _ =>
      mul_nonneg (le_trans (mul_nonneg (by linarith) (sq_nonneg _)) (hrA i)) (sq_nonneg _)
    have a2 : 2 * γ * (N * Q) ≤ lam * Q * (1 - γ) := by nlinarith
    exact le_of_mul_le_mul_right (a1.trans a2) (by linarith)
  have h3 : γ * (2 * (P * W)) ≤ γ * (P ^ 2 + W ^ 2) := mul_le_mul_of_nonneg_left (by nlinarith [sq_nonneg (P - W)]) h0
  linarith

variable {F : Rounding} {a : ℕ → ℕ → ℝ} {c' : ℕ → ℕ → FX F} {c : ℕ → ℕ → ℝ}

/-- The sum in the loop. -/
theorem chol_sum (F : Rounding) {c' : ℕ → ℕ → FX F} {c : ℕ → ℕ → ℝ} {i j : ℕ} (hi : ∀ k < j, c' i k = FX.of F (c i k)) (hj : ∀ k < j, c' j k = FX.of F (c j k)) :
    ∃ t : ℕ → ℝ, (∀ k < j, Close F.u j (t k)) ∧
      accSum (fun k => c' i k * c' j k) j = FX.of F (∑ k ∈ Finset.range j, c i k * c j k * t k) := by
  obtain ⟨t, ht, e⟩ := accSum_rnd F (fun k => c i k * c j k) j
  refine ⟨t, ht, ?_⟩
  rw [← e]
  exact accSum_congr' fun k hk => by rw [hi k hk, hj k hk, FX.of_mul]

theorem FX.sqrt_neg {x : ℝ} (h : x < 0) : CReal.sqrt (FX.of F x) = ⟨XR.nan⟩ := by
  change FX.rd F (CReal.sqrt (XR.fin x)) = _
  have : (CReal.sqrt (XR.fin x) : XR) = XR.nan := XR.fin_sqrt_neg h
  rw [this]
  rfl

/-- The pivot. -/
theorem chol_pivot (h : CholRec (fun i j => FX.of F (a i j)) c') {j : ℕ} (hj : ∀ k < j, c' j k = FX.of F (c j k)) :
    ∃ t : ℕ → ℝ, (∀ k < j, Close F.u j (t k)) ∧
      ∀ x : ℝ, 0 < x → (c' j j = FX.of F x ↔ 0 < a j j - ∑ k ∈ Finset.range j, c j k * c j k * t k ∧
        x = F.rnd (√(F.rnd (a j j - ∑ k ∈ Finset.range j, c j k * c j k * t k)))) := by
  obtain ⟨t, ht, e⟩ := chol_sum F hj hj
  refine ⟨t, ht, fun x hx => ?_⟩
  rw [h.diag, e, FX.of_sub]
  generalize a j j - ∑ k ∈ Finset.range j, c j k * c j k * t k = s
  rcases lt_trichotomy s 0 with hs | hs | hs
  · have : F.rnd s < 0 := lt_of_le_of_ne (F.rnd_nonpos hs.le) (F.rnd_ne_zero hs.ne)
    rw [FX.sqrt_neg this]
    constructor
    · intro h
      have := congrArg FX.val h
      exact absurd this (by simp [FX.of])
    · intro h
      linarith [h.1]
  · rw [hs, F.rnd_zero, FX.of_sqrt le_rfl, Real.sqrt_zero, F.rnd_zero, FX.of_inj]
    constructor
    · intro h; linarith
    · intro h; linarith [h.1]
  · rw [FX.of_sqrt (F.rnd_nonneg hs.le), FX.of_inj]
    constructor
    · intro h; exact ⟨hs, h.symm⟩
    · intro h; exact h.2.symm

/-- The elements below the pivot. -/
theorem chol_below (h : CholRec (fun i j => FX.of F (a i j)) c') {i j : ℕ} (hij : j < i) (hi : ∀ k < j, c' i k = FX.of F (c i k))
    (hj : ∀ k < j, c' j k = FX.of F (c j k)) (hd : c' j j = FX.of F (c j j)) (hp : 0 < c j j) :
    ∃ t : ℕ → ℝ, (∀ k < j, Close F.u j (t k)) ∧
      c' i j = FX.of F (F.rnd (F.rnd (a i j - ∑ k ∈ Finset.range j, c i k * c j k * t k) / c j j)) := by
  obtain ⟨t, ht, e⟩ := chol_sum F hi hj
  refine ⟨t, ht, ?_⟩
  rw [h.low i j hij, e, hd, FX.of_sub, FX.of_div hp.ne']

/-- Every element of the matrix is a perturbed product of the rows of the factor. -/
theorem chol_entry (h : CholRec (fun i j => FX.of F (a i j)) c') {i j : ℕ} (hij : j ≤ i) (hi : ∀ k < j, c' i k = FX.of F (c i k))
    (hj : ∀ k < j, c' j k = FX.of F (c j k)) (hd : c' j j = FX.of F (c j j)) (hp : 0 < c j j) (hx : c' i j = FX.of F (c i j)) :
    ∃ (t : ℕ → ℝ) (w : ℝ), (∀ k < j, Close F.u j (t k)) ∧ Close F.u 3 w ∧
      a i j = ∑ k ∈ Finset.range j, c i k * c j k * t k + c i j * c j j * w := by
  have h0 := F.u_nonneg
  have h1 := F.u_lt
  rcases hij.eq_or_lt with rfl | hij
  · obtain ⟨t, ht, hx⟩ := chol_pivot h hj
    obtain ⟨hs, e⟩ := (hx _ hp).1 hd
    generalize hS : a j j - ∑ k ∈ Finset.range j, c j k * c j k * t k = s at *
    obtain ⟨p, hp1, ep⟩ := F.near s
    rw [ep] at e
    obtain ⟨q, hq, eq⟩ := F.near (√(s * p))
    rw [eq] at e
    have pp := hp1.pos h0 h1
    have qp := hq.pos h0 h1
    refine ⟨t, (p * (q * q))⁻¹, ht, ((hp1.mul h0 h1 (hq.mul h0 h1 hq)).mono h0 h1 (by norm_num)).inv h0 h1, ?_⟩
    have e2 : c j j * c j j = s * (p * (q * q)) := by
      rw [e]
      have := Real.mul_self_sqrt (mul_nonneg hs.le pp.le)
      calc √(s * p) * q * (√(s * p) * q) = (√(s * p) * √(s * p)) * (q * q) := by ring
        _ = _ := by rw [this]; ring
    have e3 : c j j * c j j * (p * (q * q))⁻¹ = s := by
      rw [e2]
      have : p * (q * q) ≠ 0 := by positivity
      field_simp
    rw [e3]
    linarith
  · obtain ⟨t, ht, e⟩ := chol_below h hij hi hj hd hp
    rw [hx, FX.of_inj] at e
    generalize hS : a i j - ∑ k ∈ Finset.range j, c i k * c j k * t k = s at *
    obtain ⟨p, hp1, ep⟩ := F.near s
    rw [ep] at e
    obtain ⟨q, hq, eq⟩ := F.near (s * p / c j j)
    rw [eq] at e
    have pp := hp1.pos h0 h1
    have qp := hq.pos h0 h1
    refine ⟨t, (p * q)⁻¹, ht, ((hp1.mul h0 h1 hq).mono h0 h1 (by norm_num)).inv h0 h1, ?_⟩
    have e3 : c i j * c j j * (p * q)⁻¹ = s := by
      rw [e]
      field_simp
    rw [e3]
    linarith

/-- The backward error of an element. -/
theorem chol_entry_err (h : CholRec (fun i j => FX.of F (a i j)) c') {n i j : ℕ} (hn : j < n) (hij : j ≤ i) (hi : ∀ k < j, c' i k = FX.of F (c i k))
    (hj : ∀ k < j, c' j k = FX.of F (c j k)) (hd : c' j j = FX.of F (c j j)) (hp : 0 < c j j) (hx : c' i j = FX.of F (c i j)) :
    |a i j - ∑ k ∈ Finset.range (j + 1), c i k * c j k| ≤ gam F.u (n + 2) * ∑ k ∈ Finset.range (j + 1), |c i k| * |c j k| := by
  have h0 := F.u_nonneg
  have h1 := F.u_lt
  obtain ⟨t, w, ht, hw, e⟩ := chol_entry h hij hi hj hd hp hx
  have hwn := (hw.mono h0 h1 (show 3 ≤ n + 2 by omega)).abs_sub_one h0 h1
  rw [e, Finset.sum_range_succ, Finset.sum_range_succ, mul_add]
  have e2 : ∑ k ∈ Finset.range j, c i k * c j k * t k + c i j * c j j * w - (∑ k ∈ Finset.range j, c i k * c j k + c i j * c j j) =
      ∑ k ∈ Finset.range j, (t k - 1) * (c i k * c j k) + (w - 1) * (c i j * c j j) := by
    have : ∑ k ∈ Finset.range j, (t k - 1) * (c i k * c j k) = ∑ k ∈ Finset.range j, c i k * c j k * t k - ∑ k ∈ Finset.range j, c i k * c j k := by
      rw [← Finset.sum_sub_distrib]
      exact Finset.sum_congr rfl fun k _ => by ring
    rw [this]
    ring
  rw [e2]
  refine (abs_add_le _ _).trans (add_le_add ?_ ?_)
  · rw [Finset.mul_sum]
    refine (Finset.abs_sum_le_sum_abs _ _).trans (Finset.sum_le_sum fun k hk => ?_)
    rw [abs_mul, abs_mul]
    exact mul_le_mul_of_nonneg_right (((ht k (Finset.mem_range.1 hk)).mono h0 h1 (by omega)).abs_sub_one h0 h1) (mul_nonneg (abs_nonneg _) (abs_nonneg _))
  · rw [abs_mul, abs_mul]
    exact mul_le_mul_of_nonneg_right hwn (mul_nonneg (abs_nonneg _) (abs_nonneg _))

end Verif
