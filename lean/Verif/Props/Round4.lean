import Verif.Props.Round3

/-!
# Linear regression in floating point (C129)

`zsl_sta_linear_reg` uses the one-pass formula: it subtracts two products of sums. Their difference can be lost completely in rounding, so that
the slope of two distinct points in double precision may come out as infinite. The theorems bound the damage and show that it happens.
-/

namespace Verif

open Out

variable {n : ℕ}

theorem sum_close_err' {ι : Type*} [Fintype ι] {u : ℝ} {k : ℕ} (h0 : 0 ≤ u) (h1 : u < 1) (x t : ι → ℝ) (ht : ∀ i, Close u k (t i)) :
    |∑ i, x i * t i - ∑ i, x i| ≤ gam u k * ∑ i, |x i| := by
  rw [← Finset.sum_sub_distrib, Finset.mul_sum]
  refine (Finset.abs_sum_le_sum_abs _ _).trans (Finset.sum_le_sum fun i _ => ?_)
  rw [show x i * t i - x i = (t i - 1) * x i by ring, abs_mul]
  exact mul_le_mul_of_nonneg_right ((ht i).abs_sub_one h0 h1) (abs_nonneg _)

/-- The sums of the loop, for any scalar. -/
theorem regSums_gen {R : Type} [CReal R] (x y : Fin n → R) (X Y : ℕ → R) (hX : ∀ i : Fin n, X i = x i) (hY : ∀ i : Fin n, Y i = y i) (t s : List R) :
    forN n (fun i (s' : RegSums R) => do
      let a ← rd (vecOf x t).data i
      let b ← rd (vecOf y s).data i
      return ⟨s'.x + a, s'.y + b, s'.xy + a * b, s'.xx + a * a, s'.yy + b * b⟩) ⟨lit 0, lit 0, lit 0, lit 0, lit 0⟩ =
      ok ⟨accSum X n, accSum Y n, accSum (fun i => X i * Y i) n, accSum (fun i => X i * X i) n, accSum (fun i => Y i * Y i) n⟩ := by
  refine forN_eq (g := fun k => (⟨accSum X k, accSum Y k, accSum (fun i => X i * Y i) k, accSum (fun i => X i * X i) k,
    accSum (fun i => Y i * Y i) k⟩ : RegSums R)) rfl ?_
  intro i hi
  have h1 := vecOf_rd x t ⟨i, hi⟩
  have h2 := vecOf_rd y s ⟨i, hi⟩
  have h3 := hX ⟨i, hi⟩
  have h4 := hY ⟨i, hi⟩
  simp only at h1 h2 h3 h4
  rw [h1, ok_bind, h2, ok_bind, ← h3, ← h4]
  rfl

/-- The sums of the loop with rounding. -/
theorem regSums_F (F : Rounding) (x y : Fin n → ℝ) (t s : List (FX F)) :
    ∃ a b p q r : Fin n → ℝ, ((∀ i, Close F.u n (a i)) ∧ (∀ i, Close F.u n (b i)) ∧ (∀ i, Close F.u n (p i)) ∧ (∀ i, Close F.u n (q i)) ∧ ∀ i, Close F.u n (r i)) ∧
    forN n (fun i (s' : RegSums (FX F)) => do
      let a ← rd (vecF F x t).data i
      let b ← rd (vecF F y s).data i
      return ⟨s'.x + a, s'.y + b, s'.xy + a * b, s'.xx + a * a, s'.yy + b * b⟩) ⟨lit 0, lit 0, lit 0, lit 0, lit 0⟩ =
      ok ⟨FX.of F (∑ i, x i * a i), FX.of F (∑ i, y i * b i), FX.of F (∑ i, x i * y i * p i), FX.of F (∑ i, x i * x i * q i),
        FX.of F (∑ i, y i * y i * r i)⟩ := by
  obtain ⟨a, ha, ea⟩ := accSum_plain F (seqOf x) n
  obtain ⟨b, hb, eb⟩ := accSum_plain F (seqOf y) n
  obtain ⟨p, hp, ep⟩ := accSum_rnd F (fun i => seqOf x i * seqOf y i) n
  obtain ⟨q, hq, eq⟩ := accSum_rnd F (fun i => seqOf x i * seqOf x i) n
  obtain ⟨r, hr, er⟩ := accSum_rnd F (fun i => seqOf y i * seqOf y i) n
  refine ⟨fun i => a i, fun i => b i, fun i => p i, fun i => q i, fun i => r i, ⟨fun i => ha i i.isLt, fun i => hb i i.isLt, fun i => hp i i.isLt,
    fun i => hq i i.isLt, fun i => hr i i.isLt⟩, ?_⟩
  refine (regSums_gen _ _ (fun i => FX.of F (seqOf x i)) (fun i => FX.of F (seqOf y i)) (fun i => by rw [seqOf_fin]) (fun i => by rw [seqOf_fin]) t s).trans ?_
  simp only [FX.of_mul]
  rw [ea, eb, ep, eq, er]
  simp only [Finset.sum_range, seqOf_fin]

/-- A difference of products of sums, as computed. -/
theorem diff_F (F : Rounding) (x y : Fin n → ℝ) {a b p : Fin n → ℝ} (ha : ∀ i, Close F.u n (a i)) (hb : ∀ i, Close F.u n (b i))
    (hp : ∀ i, Close F.u n (p i)) :
    |F.rnd (F.rnd (F.rnd n * ∑ i, x i * y i * p i) - F.rnd ((∑ i, x i * a i) * ∑ i, y i * b i)) - (n * ∑ i, x i * y i - (∑ i, x i) * ∑ i, y i)| ≤
      gam F.u (2 * n + 3) * (n * ∑ i, |x i * y i| + (∑ i, |x i|) * ∑ i, |y i|) := by
  have h0 := F.u_nonneg
  have h1 := F.u_lt
  obtain ⟨c, hc, ec⟩ := F.near (n : ℝ)
  obtain ⟨d, hd, ed⟩ := F.near (F.rnd n * ∑ i, x i * y i * p i)
  obtain ⟨e, he, ee⟩ := F.near ((∑ i, x i * a i) * ∑ i, y i * b i)
  obtain ⟨f, hf, ef⟩ := F.near (F.rnd (F.rnd n * ∑ i, x i * y i * p i) - F.rnd ((∑ i, x i * a i) * ∑ i, y i * b i))
  rw [ef, ed, ee, ec]
  have k1 : n * c * (∑ i, x i * y i * p i) * d * f = n * ∑ i, x i * y i * (p i * (c * (d * f))) := by
    have : ∑ i, x i * y i * (p i * (c * (d * f))) = (∑ i, x i * y i * p i) * (c * (d * f)) := by
      rw [Finset.sum_mul]
      exact Finset.sum_congr rfl fun i _ => by ring
    rw [this]
    ring
  have k2 : (∑ i, x i * a i) * (∑ i, y i * b i) * e * f = ∑ k : Fin n × Fin n, x k.1 * y k.2 * (a k.1 * (b k.2 * (e * f))) := by
    rw [Fintype.sum_prod_type, Finset.sum_mul_sum, Finset.sum_mul, Finset.sum_mul]
    refine Finset.sum_congr rfl fun i _ => ?_
    rw [Finset.sum_mul, Finset.sum_mul]
    exact Finset.sum_congr rfl fun j _ => by ring
  have k3 : (∑ i, x i) * ∑ i, y i = ∑ k : Fin n × Fin n, x k.1 * y k.2 := by rw [Fintype.sum_prod_type, Finset.sum_mul_sum]
  have k4 : (∑ i, |x i|) * ∑ i, |y i| = ∑ k : Fin n × Fin n, |x k.1 * y k.2| := by
    rw [Fintype.sum_prod_type, Finset.sum_mul_sum]
    exact Finset.sum_congr rfl fun i _ => Finset.sum_congr rfl fun j _ => (abs_mul _ _).symm
  have l1 := sum_close_err' h0 h1 (fun i => x i * y i) (fun i => p i * (c * (d * f))) (k := 2 * n + 3)
    fun i => ((hp i).mul' F (hc.mul' F (hd.mul' F hf))).mono h0 h1 (by omega)
  have l2 := sum_close_err' h0 h1 (fun k : Fin n × Fin n => x k.1 * y k.2) (fun k => a k.1 * (b k.2 * (e * f))) (k := 2 * n + 3)
    fun k => ((ha k.1).mul' F ((hb k.2).mul' F (he.mul' F hf))).mono h0 h1 (by omega)
  rw [sub_mul, k1, k2, k3, k4, mul_add]
  have hn : (0 : ℝ) ≤ n := Nat.cast_nonneg n
  calc |n * ∑ i, x i * y i * (p i * (c * (d * f))) - ∑ k : Fin n × Fin n, x k.1 * y k.2 * (a k.1 * (b k.2 * (e * f))) -
        (n * ∑ i, x i * y i - ∑ k : Fin n × Fin n, x k.1 * y k.2)|
      = |n * (∑ i, x i * y i * (p i * (c * (d * f))) - ∑ i, x i * y i) - (∑ k : Fin n × Fin n, x k.1 * y k.2 * (a k.1 * (b k.2 * (e * f))) -
          ∑ k : Fin n × Fin n, x k.1 * y k.2)| := by congr 1; ring
    _ ≤ |n * (∑ i, x i * y i * (p i * (c * (d * f))) - ∑ i, x i * y i)| + |∑ k : Fin n × Fin n, x k.1 * y k.2 * (a k.1 * (b k.2 * (e * f))) -
          ∑ k : Fin n × Fin n, x k.1 * y k.2| := abs_sub _ _
    _ ≤ _ := by
        rw [abs_mul, abs_of_nonneg hn, mul_left_comm (gam _ _)]
        exact add_le_add (mul_le_mul_of_nonneg_left l1 hn) l2

/-- The condition of the regression problem: how small the spread of the abscissae is against their size. -/
def WellSpread (F : Rounding) (x : Fin n → ℝ) : Prop :=
  gam F.u (2 * n + 3) * (n * ∑ i, |x i * x i| + (∑ i, |x i|) * ∑ i, |x i|) < n * ∑ i, x i * x i - (∑ i, x i) * ∑ i, x i

/-- C129, part: if the spread of the abscissae exceeds `2 n + 3` roundings of their size, the computed slope is a number: a rounded quotient whose
numerator and denominator are within `2 n + 3` roundings of those of the least-squares slope, and the computed line passes the centroid of the data up to
`n + 4` roundings. Missing: without the condition the slope may be infinite (`sta_linear_reg_cancels`). -/
theorem sta_linear_reg_rounding_partial (F : Rounding) (x y : Fin n → ℝ) (t s : List (FX F)) (c : LinReg (FX F)) (hx : WellSpread F x) :
    ∃ (num den b : ℝ) (corr : FX F),
      staLinearReg (vecF F x t) (vecF F y s) c = ok (0, ⟨FX.of F (F.rnd (num / den)), FX.of F b, corr⟩) ∧ 0 < den ∧
      |num - (n * ∑ i, x i * y i - (∑ i, x i) * ∑ i, y i)| ≤ gam F.u (2 * n + 3) * (n * ∑ i, |x i * y i| + (∑ i, |x i|) * ∑ i, |y i|) ∧
      |den - (n * ∑ i, x i * x i - (∑ i, x i) * ∑ i, x i)| ≤ gam F.u (2 * n + 3) * (n * ∑ i, |x i * x i| + (∑ i, |x i|) * ∑ i, |x i|) ∧
      |b - (meanOf y - F.rnd (num / den) * meanOf x)| ≤
        gam F.u (n + 4) * (meanOf (fun i => |y i|) + |F.rnd (num / den)| * meanOf fun i => |x i|) := by
  have h0 := F.u_nonneg
  have h1 := F.u_lt
  rcases Nat.eq_zero_or_pos n with rfl | hn
  · simp [WellSpread] at hx
  have hn0 : (0 : ℝ) < n := by positivity
  obtain ⟨wa, wb, wp, wq, wr, ⟨ha, hb, hp, hq, hr⟩, e⟩ := regSums_F F x y t s
  have d1 := diff_F F x y ha hb hp
  have d2 := diff_F F x x ha ha hq
  set num := F.rnd (F.rnd (F.rnd n * ∑ i, x i * y i * wp i) - F.rnd ((∑ i, x i * wa i) * ∑ i, y i * wb i)) with hnum
  set den := F.rnd (F.rnd (F.rnd n * ∑ i, x i * x i * wq i) - F.rnd ((∑ i, x i * wa i) * ∑ i, x i * wa i)) with hden
  have hd : 0 < den := by
    have := (abs_le.1 d2).1
    unfold WellSpread at hx
    linarith
  have run : ∃ corr, staLinearReg (vecF F x t) (vecF F y s) c = ok (0, ⟨FX.of F (F.rnd (num / den)),
      FX.of F (F.rnd (F.rnd ((∑ i, y i * wb i) - F.rnd (F.rnd (num / den) * ∑ i, x i * wa i)) / F.rnd n)), corr⟩) := by
    refine ⟨FX.of F num / CReal.sqrt (FX.of F den * FX.of F (F.rnd (F.rnd (F.rnd n * ∑ i, y i * y i * wr i) - F.rnd ((∑ i, y i * wb i) * ∑ i, y i * wb i)))), ?_⟩
    rw [staLinearReg, if_neg (by simp [vecF]), show (vecF F x t).sz = n from rfl, e, ok_bind]
    simp only [FX.ofNat_eq, FX.of_mul, FX.of_sub]
    rw [← hnum, ← hden, FX.of_div hd.ne', FX.of_mul, FX.of_sub, FX.of_div (F.rnd_ne_zero hn0.ne')]
    rfl
  obtain ⟨corr, run⟩ := run
  refine ⟨num, den, _, corr, run, hd, d1, d2, ?_⟩
  · set k := F.rnd (num / den)
    obtain ⟨r1, hr1, er1⟩ := F.near (k * ∑ i, x i * wa i)
    obtain ⟨r2, hr2, er2⟩ := F.near ((∑ i, y i * wb i) - F.rnd (k * ∑ i, x i * wa i))
    obtain ⟨r3, hr3, er3⟩ := F.near (n : ℝ)
    obtain ⟨r4, hr4, er4⟩ := F.near (F.rnd ((∑ i, y i * wb i) - F.rnd (k * ∑ i, x i * wa i)) / F.rnd n)
    have hr30 := (hr3.pos h0 h1).ne'
    have l1 := sum_close_err h0 h1 y (fun i => wb i * (r2 * (r3⁻¹ * r4))) (k := n + 4)
      fun i => ((hb i).mul' F (hr2.mul' F ((hr3.inv h0 h1).mul' F hr4))).mono h0 h1 (by omega)
    have l2 := sum_close_err h0 h1 x (fun i => wa i * (r1 * (r2 * (r3⁻¹ * r4)))) (k := n + 4)
      fun i => ((ha i).mul' F (hr1.mul' F (hr2.mul' F ((hr3.inv h0 h1).mul' F hr4)))).mono h0 h1 (by omega)
    have k1 : ∑ i, y i * (wb i * (r2 * (r3⁻¹ * r4))) = (∑ i, y i * wb i) * (r2 * (r3⁻¹ * r4)) := by
      rw [Finset.sum_mul]
      exact Finset.sum_congr rfl fun i _ => by ring
    have k2 : ∑ i, x i * (wa i * (r1 * (r2 * (r3⁻¹ * r4)))) = (∑ i, x i * wa i) * (r1 * (r2 * (r3⁻¹ * r4))) := by
      rw [Finset.sum_mul]
      exact Finset.sum_congr rfl fun i _ => by ring
    rw [k1] at l1
    rw [k2] at l2
    have e3 : F.rnd (F.rnd ((∑ i, y i * wb i) - F.rnd (k * ∑ i, x i * wa i)) / F.rnd n) - (meanOf y - k * meanOf x) =
        (((∑ i, y i * wb i) * (r2 * (r3⁻¹ * r4)) - ∑ i, y i) - k * ((∑ i, x i * wa i) * (r1 * (r2 * (r3⁻¹ * r4))) - ∑ i, x i)) / n := by
      rw [er4, er2, er1, er3, meanOf, meanOf]
      field_simp
      ring
    rw [e3, abs_div, abs_of_pos hn0, div_le_iff₀ hn0]
    refine (abs_sub _ _).trans ?_
    rw [abs_mul]
    have : gam F.u (n + 4) * (meanOf (fun i => |y i|) + |k| * meanOf fun i => |x i|) * n =
        gam F.u (n + 4) * ∑ i, |y i| + |k| * (gam F.u (n + 4) * ∑ i, |x i|) := by
      rw [meanOf, meanOf]
      field_simp
    rw [this]
    exact add_le_add l1 (mul_le_mul_of_nonneg_left l2 (abs_nonneg _))

/-! ### Cancellation -/

/-- Rounding of a large natural number. -/
theorem nearest_scaled (p k q r : ℕ) (h1 : 2 ^ p ≤ q) (h2 : q < 2 ^ (p + 1)) (hr : 2 * r < 2 ^ k) :
    nearest p ((q * 2 ^ k + r : ℕ) : ℝ) = ((q * 2 ^ k : ℕ) : ℝ) := by
  have a1 : 2 ^ (p + k) ≤ q * 2 ^ k + r := by
    rw [pow_add]
    exact le_add_right (Nat.mul_le_mul_right _ h1)
  have a2 : q * 2 ^ k + r < 2 ^ (p + k + 1) := by
    have : (q + 1) * 2 ^ k ≤ 2 ^ (p + 1) * 2 ^ k := Nat.mul_le_mul_right _ h2
    rw [← pow_add, show p + 1 + k = p + k + 1 by ring, add_mul] at this
    omega
  rw [nearest_of p (L := ((p + k : ℕ) : ℤ)) (by rw [zpow_natCast]; exact_mod_cast a1) (by rw [← Nat.cast_succ, zpow_natCast]; exact_mod_cast a2)]
  have hz : (2 : ℝ) ^ (((p + k : ℕ) : ℤ) - p) = 2 ^ k := by
    rw [show ((p + k : ℕ) : ℤ) - p = (k : ℕ) by push_cast; ring, zpow_natCast]
  rw [hz]
  have hrd : round (((q * 2 ^ k + r : ℕ) : ℝ) / 2 ^ k) = (q : ℤ) := by
    have h2k : (0 : ℝ) < 2 ^ k := by positivity
    have hr' : (2 : ℝ) * r < 2 ^ k := by exact_mod_cast hr
    rw [round_eq, Int.floor_eq_iff]
    push_cast
    rw [add_div, mul_div_assoc, div_self h2k.ne', mul_one]
    have : (r : ℝ) / 2 ^ k < 1 / 2 := by
      rw [div_lt_iff₀ h2k]
      linarith
    have h3 : (0 : ℝ) ≤ r / 2 ^ k := by positivity
    constructor <;> linarith
  rw [hrd]
  push_cast
  ring

theorem cancel_run (F : Rounding) (hs : ∀ m : ℕ, m < 2 ^ 53 → F.rnd m = m)
    (big : ∀ k q r : ℕ, 2 ^ 52 ≤ q → q < 2 ^ 53 → 2 * r < 2 ^ k → F.rnd ((q * 2 ^ k + r : ℕ) : ℝ) = ((q * 2 ^ k : ℕ) : ℝ))
    (t s : List (FX F)) (c : LinReg (FX F)) :
    staLinearReg (vecF F (![2 ^ 27, 2 ^ 27 + 1] : Fin 2 → ℝ) t) (vecF F (![0, 1] : Fin 2 → ℝ) s) c = ok (0, ⟨⟨XR.pinf⟩, ⟨XR.ninf⟩, ⟨XR.pinf⟩⟩) := by
  have z := F.rnd_zero
  have o := F.one
  have h1 : F.rnd 134217728 = 134217728 := by exact_mod_cast hs 134217728 (by norm_num)
  have h2 : F.rnd 134217729 = 134217729 := by exact_mod_cast hs 134217729 (by norm_num)
  have h3 : F.rnd 268435457 = 268435457 := by exact_mod_cast hs 268435457 (by norm_num)
  have h4 : F.rnd 268435458 = 268435458 := by exact_mod_cast hs 268435458 (by norm_num)
  have h5 : F.rnd 2 = 2 := by exact_mod_cast hs 2 (by norm_num)
  have b1 : F.rnd 18014398509481984 = 18014398509481984 := by
    have := big 2 (2 ^ 52) 0 (by norm_num) (by norm_num) (by norm_num)
    norm_num at this
    exact this
  have b2 : F.rnd 18014398777917441 = 18014398777917440 := by
    have := big 2 (2 ^ 52 + 2 ^ 26) 1 (by norm_num) (by norm_num) (by norm_num)
    norm_num at this
    exact this
  have b3 : F.rnd 36028797287399424 = 36028797287399424 := by
    have := big 3 (2 ^ 52 + 2 ^ 25) 0 (by norm_num) (by norm_num) (by norm_num)
    norm_num at this
    exact this
  have b4 : F.rnd 72057594574798848 = 72057594574798848 := by
    have := big 4 (2 ^ 52 + 2 ^ 25) 0 (by norm_num) (by norm_num) (by norm_num)
    norm_num at this
    exact this
  have b5 : F.rnd 72057594574798849 = 72057594574798848 := by
    have := big 4 (2 ^ 52 + 2 ^ 25) 1 (by norm_num) (by norm_num) (by norm_num)
    norm_num at this
    exact this
  rw [staLinearReg, if_neg (by simp [vecF]), show (vecF F (![2 ^ 27, 2 ^ 27 + 1] : Fin 2 → ℝ) t).sz = 2 from rfl, vecF, vecF,
    regSums_gen _ _ (fun i => FX.of F (seqOf ![2 ^ 27, 2 ^ 27 + 1] i)) (fun i => FX.of F (seqOf ![0, 1] i)) (fun i => by rw [seqOf_fin]) (fun i => by rw [seqOf_fin]),
    ok_bind]
  simp only [accSum, FX.of_mul, FX.of_add, FX.lit_eq, FX.ofNat_eq, FX.of_sub]
  norm_num [seqOf, z, o, h1, h2, h3, h4, h5, b1, b2, b3, b4, b5, FX.of_div_zero]
  have hi : XR.infOf 1 = XR.pinf := by simp [XR.infOf]
  have h6 : (⟨XR.pinf⟩ : FX F) * FX.of F 268435457 = ⟨XR.pinf⟩ := by
    change FX.rd F (XR.infOf 268435457) = _
    simp [XR.infOf, FX.rd, XR.rnd]
  have h7 : FX.of F 1 - (⟨XR.pinf⟩ : FX F) = ⟨XR.ninf⟩ := rfl
  have h8 : (⟨XR.ninf⟩ : FX F) / FX.of F 2 = ⟨XR.ninf⟩ := by
    change FX.rd F (if (2 : ℝ) < 0 then XR.pinf else XR.ninf) = _
    rw [if_neg (by norm_num)]
    rfl
  refine ⟨hi, ?_, ?_⟩
  · rw [hi, h6, h7, h8]
  · rw [FX.of_sqrt le_rfl, Real.sqrt_zero, z, FX.of_div_zero, hi]

example (F : Rounding) (h : F.u ≤ 1 / 1000) : WellSpread F (![1, 2, 4] : Fin 3 → ℝ) := by
  have h0 := F.u_nonneg
  have hg := gam_le F.u_lt (k := 9) (by push_cast; linarith)
  have h1 : gam F.u 9 ≤ 1 / 100 := by
    refine hg.trans ?_
    rw [div_le_iff₀ (by push_cast; linarith)]
    push_cast
    linarith
  unfold WellSpread
  simp [Fin.sum_univ_three]
  norm_num
  linarith

/-- C129: the code does not have the property. In double precision the regression line through (2^27, 0) and (2^27 + 1, 1), whose slope is one,
gets an infinite slope, intercept and correlation: both products of sums round to the same number. -/
theorem sta_linear_reg_cancels (lib : Libm) (t s : List (FX (nearestRounding 52 lib))) (c : LinReg (FX (nearestRounding 52 lib))) :
    staLinearReg (vecF (nearestRounding 52 lib) (![2 ^ 27, 2 ^ 27 + 1] : Fin 2 → ℝ) t) (vecF (nearestRounding 52 lib) (![0, 1] : Fin 2 → ℝ) s) c =
      ok (0, ⟨⟨XR.pinf⟩, ⟨XR.ninf⟩, ⟨XR.pinf⟩⟩) :=
  cancel_run _ (fun m hm => nearest_nat 52 m hm) (fun k q r => nearest_scaled 52 k q r) t s c

end Verif
