import Verif.Lemmas.Round

/-!
# Rounding errors of vector and matrix operations (C124, C125)

`F` is any rounding (`Base/FX.lean`), `gam F.u k` the relative error of `k` roundings, at most `k u / (1 - k u)` (`gam_le`).
-/

namespace Verif

open Out

variable {F : Rounding} {n p q : ℕ}

/-- C124. The computed dot product is the exact one of data whose products are changed by at most `n` roundings, so that it is wrong by at most
`gam u n` times the sum of the absolute products. -/
theorem vec_dot_rounding (F : Rounding) (x y : Fin n → ℝ) (t s : List (FX F)) (d : FX F) :
    ∃ r : ℝ, vecDot (vecF F x t) (vecF F y s) d = ok (0, FX.of F r) ∧ (∃ w : Fin n → ℝ, (∀ i, Close F.u n (w i)) ∧ r = ∑ i, x i * y i * w i) ∧
      |r - ∑ i, x i * y i| ≤ gam F.u n * ∑ i, |x i * y i| := by
  obtain ⟨w, hw, e⟩ := vecDot_F F x y t s d
  exact ⟨_, e, ⟨w, hw, rfl⟩, sum_close_err F.u_nonneg F.u_lt _ _ hw⟩

/-- C124. The sum of squares has a small relative error. -/
theorem vec_sum_of_sqrs_rounding (F : Rounding) (x : Fin n → ℝ) (t : List (FX F)) :
    ∃ r : ℝ, vecSumOfSqrs (vecF F x t) = ok (FX.of F r) ∧ Near F.u n r (∑ i, x i ^ 2) := by
  obtain ⟨w, hw, e⟩ := vecDot_F F x x t t (lit 0)
  refine ⟨_, by rw [vecSumOfSqrs, e]; rfl, ?_⟩
  have := sum_close_near F.u_nonneg F.u_lt (fun i => x i ^ 2) w (fun i => sq_nonneg _) hw
  simpa [pow_two] using this

theorem vecNorm_F (F : Rounding) (x : Fin n → ℝ) (t : List (FX F)) :
    ∃ r : ℝ, vecNorm (vecF F x t) = ok (FX.of F r) ∧ Near F.u (n + 1) r (Real.sqrt (∑ i, x i ^ 2)) := by
  obtain ⟨r, e, h⟩ := vec_sum_of_sqrs_rounding F x t
  have hs : 0 ≤ ∑ i, x i ^ 2 := Finset.sum_nonneg fun i _ => sq_nonneg _
  refine ⟨_, ?_, (h.sqrt F hs).rnd F⟩
  rw [vecNorm, e, ok_bind, FX.of_sqrt (h.nonneg F hs)]
  rfl

/-- C124. The norm has a small relative error. -/
theorem vec_norm_rounding (F : Rounding) (x : Fin n → ℝ) (t : List (FX F)) :
    ∃ r : ℝ, vecNorm (vecF F x t) = ok (FX.of F r) ∧ |r - Real.sqrt (∑ i, x i ^ 2)| ≤ gam F.u (n + 1) * Real.sqrt (∑ i, x i ^ 2) := by
  obtain ⟨r, e, h⟩ := vecNorm_F F x t
  refine ⟨r, e, ?_⟩
  have := h.err F
  rwa [abs_of_nonneg (Real.sqrt_nonneg _)] at this

/-- The difference of two vectors, each element correctly rounded. -/
theorem vecSub_F (F : Rounding) (x y : Fin n → ℝ) (z : Fin n → FX F) (t s w : List (FX F)) :
    vecSub (vecF F x t) (vecF F y s) (vecOf z w) = ok (0, vecF F (fun i => F.rnd (x i - y i)) w) := by
  unfold vecF
  rw [vec_sub_correct _ _ _ (vecOf_wf _ t) (vecOf_wf _ s) (vecOf_wf z w)]
  simp only [vecOf_sz, and_self, if_true]
  rw [vecOf_vals, vecOf_vals, vecOf_drop, zipWith_ofFn]
  simp only [FX.of_sub]
  rfl

/-- C124. `zsl_vec_add`, `zsl_vec_sub`, `zsl_vec_scalar_add` and `zsl_vec_scalar_mult` round every element once. -/
theorem vec_elementwise_rounding (F : Rounding) (x y : Fin n → ℝ) (a : ℝ) (z : Fin n → FX F) (t s w : List (FX F)) :
    vecAdd (vecF F x t) (vecF F y s) (vecOf z w) = ok (0, vecF F (fun i => F.rnd (x i + y i)) w) ∧
    vecSub (vecF F x t) (vecF F y s) (vecOf z w) = ok (0, vecF F (fun i => F.rnd (x i - y i)) w) ∧
    vecScalarAdd (vecF F x t) (FX.of F a) = ok (0, vecF F (fun i => F.rnd (x i + a)) t) ∧
    vecScalarMult (vecF F x t) (FX.of F a) = ok (0, vecF F (fun i => F.rnd (x i * a)) t) := by
  refine ⟨?_, vecSub_F F x y z t s w, ?_, ?_⟩
  · unfold vecF
    rw [vec_add_correct _ _ _ (vecOf_wf _ t) (vecOf_wf _ s) (vecOf_wf z w)]
    simp only [vecOf_sz, and_self, if_true]
    rw [vecOf_vals, vecOf_vals, vecOf_drop, zipWith_ofFn]
    simp only [FX.of_add]
    rfl
  · unfold vecF
    rw [vec_scalar_add_correct _ _ (vecOf_wf _ t), vecOf_sz, vecOf_drop, vecOf_vals, List.map_ofFn]
    rfl
  · unfold vecF
    rw [vec_scalar_mult_correct _ _ (vecOf_wf _ t), vecOf_sz, vecOf_drop, vecOf_vals, List.map_ofFn]
    rfl

/-- C124. The distance has a small relative error. -/
theorem vec_dist_rounding (F : Rounding) (x y : Fin n → ℝ) (t s : List (FX F)) :
    ∃ r : ℝ, vecDist (vecF F x t) (vecF F y s) = ok (FX.of F r) ∧ Near F.u (n + 3) r (Real.sqrt (∑ i, (x i - y i) ^ 2)) := by
  have hr : (⟨n, List.replicate n (lit 0)⟩ : Vec (FX F)) = vecOf (fun _ : Fin n => lit 0) [] := by
    unfold vecOf arrOf
    simp
  obtain ⟨w, hw, e⟩ := vecDot_F F (fun i => F.rnd (x i - y i)) (fun i => F.rnd (x i - y i)) [] [] (lit 0)
  choose v hv ev using fun i => F.near (x i - y i)
  have hs : 0 ≤ ∑ i, (x i - y i) ^ 2 := Finset.sum_nonneg fun i _ => sq_nonneg _
  have hn : Near F.u (n + 2) (∑ i, F.rnd (x i - y i) * F.rnd (x i - y i) * w i) (∑ i, (x i - y i) ^ 2) := by
    have := sum_close_near F.u_nonneg F.u_lt (fun i => (x i - y i) ^ 2) (fun i => w i * (v i * v i)) (fun i => sq_nonneg _)
      fun i => (hw i).mul' F ((hv i).mul' F (hv i))
    convert this using 2
    rename_i i _
    rw [ev i]
    ring
  refine ⟨_, ?_, (hn.sqrt F hs).rnd F⟩
  unfold vecDist
  rw [show (vecF F x t).sz = n from rfl, hr, vecSub_F, ok_bind]
  simp only [ne_eq, not_true_eq_false, if_false]
  rw [vecNorm, vecSumOfSqrs, e]
  simp only [ok_bind]
  rw [pure_eq, ok_bind, FX.of_sqrt (hn.nonneg F hs)]
  rfl

/-- C124. The arithmetic mean is the exact mean of data changed by at most `n + 2` roundings. -/
theorem vec_ar_mean_rounding (F : Rounding) (x : Fin n → ℝ) (hn : 0 < n) (t : List (FX F)) (m : FX F) :
    ∃ r : ℝ, vecArMean (vecF F x t) m = ok (0, FX.of F r) ∧
      (∃ w : Fin n → ℝ, (∀ i, Close F.u (n + 2) (w i)) ∧ r = (∑ i, x i * w i) / n) ∧
      |r - (∑ i, x i) / n| ≤ gam F.u (n + 2) * ((∑ i, |x i|) / n) := by
  obtain ⟨w, hw, e⟩ := accSum_plain F (seqOf x) n
  have hn0 : (n : ℝ) ≠ 0 := by positivity
  obtain ⟨a, ha, ea⟩ := F.near (n : ℝ)
  obtain ⟨b, hb, eb⟩ := F.near ((∑ i : Fin n, x i * w i) / F.rnd (n : ℝ))
  have ha0 := (ha.pos F.u_nonneg F.u_lt).ne'
  have hc : ∀ i : Fin n, Close F.u (n + 2) (w i * (a⁻¹ * b)) := fun i =>
    (hw i i.isLt).mul' F ((ha.inv F.u_nonneg F.u_lt).mul' F hb)
  have er : F.rnd ((∑ i : Fin n, x i * w i) / F.rnd (n : ℝ)) = (∑ i, x i * (w i * (a⁻¹ * b))) / n := by
    rw [eb, ea]
    have : ∑ i : Fin n, x i * (w i * (a⁻¹ * b)) = (∑ i : Fin n, x i * w i) * (a⁻¹ * b) := by
      rw [Finset.sum_mul]
      exact Finset.sum_congr rfl fun i _ => by ring
    rw [this]
    field_simp
  refine ⟨_, ?_, ⟨fun i => w i * (a⁻¹ * b), hc, er⟩, ?_⟩
  · unfold vecArMean
    rw [show (vecF F x t).sz = n from rfl, if_neg (by omega), forN_accSum (fun k => FX.of F (seqOf x k)), e, Finset.sum_range, ok_bind, FX.ofNat_eq,
      FX.of_div (F.rnd_ne_zero hn0)]
    · simp only [seqOf_fin]
      rfl
    · intro i hi a
      have h1 := vecOf_rd (fun i => FX.of F (x i)) t ⟨i, hi⟩
      simp only at h1
      unfold vecF
      rw [h1, ok_bind]
      simp [seqOf, hi]
  · rw [er, ← sub_div, abs_div, Nat.abs_cast, ← mul_div_assoc]
    exact div_le_div_of_nonneg_right (sum_close_err F.u_nonneg F.u_lt _ _ hc) (by positivity)

/-- C124. `zsl_vec_to_unit` of a vector that is not zero: every element has a small relative error, and the length of the result is one up to
the same number of roundings. -/
theorem vec_to_unit_rounding (F : Rounding) (x : Fin n → ℝ) (hx : x ≠ 0) (t : List (FX F)) :
    ∃ y : Fin n → ℝ, vecToUnit (vecF F x t) = ok (0, vecF F y t) ∧ (∀ i, Near F.u (n + 4) (y i) (x i / Real.sqrt (∑ i, x i ^ 2))) ∧
      Near F.u (2 * (n + 4)) (∑ i, y i ^ 2) 1 := by
  obtain ⟨r, e, h⟩ := vecNorm_F F x t
  have hs : 0 < ∑ i, x i ^ 2 := by
    obtain ⟨i, hi⟩ := Function.ne_iff.1 hx
    exact Finset.sum_pos' (fun i _ => sq_nonneg _) ⟨i, Finset.mem_univ i, by have : x i ≠ 0 := hi; positivity⟩
  have hr := h.pos F (Real.sqrt_pos.2 hs)
  have hy : ∀ i, Near F.u (n + 4) (F.rnd (x i * F.rnd (F.rnd 1 / r))) (x i / Real.sqrt (∑ i, x i ^ 2)) := by
    intro i
    have h1 := (((F.near 1).div F h).rnd F)
    have h2 := (Near.mul F (Near.refl F (k := 0) (x i)) h1).rnd F
    rw [mul_one_div] at h2
    exact h2.mono' F (by omega)
  refine ⟨_, ?_, hy, ?_⟩
  · unfold vecToUnit
    rw [e, ok_bind, FX.lit_eq, Rat.cast_zero, F.rnd_zero, if_pos (by simpa using hr.ne'), FX.lit_eq, Rat.cast_one, FX.of_div hr.ne',
      (vec_elementwise_rounding F x x _ (fun _ => lit 0) t t t).2.2.2]
    rfl
  · choose w hw ew using hy
    have := sum_close_near F.u_nonneg F.u_lt (fun i => (x i / Real.sqrt (∑ i, x i ^ 2)) ^ 2) (fun i => w i * w i) (fun i => sq_nonneg _)
      (fun i => (hw i).mul' F (hw i))
    rw [← two_mul] at this
    have h1 : ∑ i, (x i / Real.sqrt (∑ i, x i ^ 2)) ^ 2 = 1 := by
      simp only [div_pow, Real.sq_sqrt hs.le]
      rw [← Finset.sum_div, div_self hs.ne']
    rw [h1] at this
    convert this using 2
    rename_i i _
    rw [ew i]
    ring

/-- C125. Every element of the computed matrix product is the exact one of data whose products are changed by at most `n` roundings. -/
theorem mtx_mult_rounding (F : Rounding) (A : Matrix (Fin p) (Fin n) ℝ) (B : Matrix (Fin n) (Fin q) ℝ) (C : Matrix (Fin p) (Fin q) (FX F))
    (t u w : List (FX F)) : ∃ D : Matrix (Fin p) (Fin q) ℝ, mtxMult (matF F A t) (matF F B u) (mtxOf C w) = ok (0, matF F D w) ∧
      ∀ i j, (∃ e : Fin n → ℝ, (∀ k, Close F.u n (e k)) ∧ D i j = ∑ k, A i k * B k j * e k) ∧
        |D i j - (A * B) i j| ≤ gam F.u n * ∑ k, |A i k| * |B k j| := by
  have key : ∀ (i : Fin p) (j : Fin q), ∃ e : Fin n → ℝ, (∀ k, Close F.u n (e k)) ∧
      accSum (fun k => ext (A.map (FX.of F)) i k * ext (B.map (FX.of F)) k j) n = FX.of F (∑ k, A i k * B k j * e k) := by
    intro i j
    obtain ⟨e, he, ee⟩ := accSum_rnd F (seqOf fun k => A i k * B k j) n
    refine ⟨fun k => e k, fun k => he k k.isLt, ?_⟩
    rw [Finset.sum_range] at ee
    simp only [seqOf_fin] at ee
    rw [← ee]
    refine accSum_congr fun k hk => ?_
    rw [ext_lt _ i.isLt hk, ext_lt _ hk j.isLt]
    simp [seqOf, hk]
  choose e he ee using key
  refine ⟨Matrix.of fun i j => ∑ k, A i k * B k j * e i j k, ?_, fun i j => ⟨⟨e i j, he i j, rfl⟩, ?_⟩⟩
  · unfold matF
    rw [mtxMult_gen]
    congr 3
    ext i j
    exact ee i j
  · rw [Matrix.mul_apply]
    have := sum_close_err F.u_nonneg F.u_lt (fun k => A i k * B k j) (e i j) (he i j)
    simpa only [abs_mul, Matrix.of_apply] using this

/-- Non-vacuity: in double precision the dot product of two vectors of a thousand elements has at least thirteen correct decimal digits
when the products are positive. -/
example (lib : Libm) (x y : Fin 1000 → ℝ) (hxy : ∀ i, 0 ≤ x i * y i) (d : FX (nearestRounding 52 lib)) :
    ∃ r : ℝ, vecDot (vecF (nearestRounding 52 lib) x []) (vecF (nearestRounding 52 lib) y []) d = ok (0, FX.of _ r) ∧
      |r - ∑ i, x i * y i| ≤ 1e-12 * ∑ i, x i * y i := by
  obtain ⟨r, h, -, hr⟩ := vec_dot_rounding (nearestRounding 52 lib) x y [] [] d
  refine ⟨r, h, hr.trans ?_⟩
  simp only [abs_of_nonneg (hxy _)]
  refine mul_le_mul_of_nonneg_right ?_ (Finset.sum_nonneg fun i _ => hxy i)
  have hu : (nearestRounding 52 lib).u = (1 / 2) ^ 53 := rfl
  rw [hu]
  refine (gam_le (by norm_num) (by norm_num)).trans ?_
  norm_num

end Verif
