import Verif.Props.Round18
import Verif.Spec.Ieee

/-!
# Lengths in binary floating point bound the components (C168)
-/

namespace Verif

open Out Quaternion

variable {F : Rounding}

/-- The square root of the rounded square of a representable number gives that number back. -/
def SqrtExact (F : Rounding) : Prop := ∀ x : ℝ, F.rnd x = x → F.rnd (Real.sqrt (F.rnd (x * x))) = |x|

theorem nearest_half_ulp (p : ℕ) {x : ℝ} {L : ℤ} (h1 : (2 : ℝ) ^ L ≤ x) (h2 : x < 2 ^ (L + 1)) : |nearest p x - x| ≤ 2 ^ (L - p) / 2 := by
  have hp : (0 : ℝ) < 2 ^ (L - p) := zpow_pos (by norm_num) _
  rw [nearest_of p h1 h2]
  have := abs_sub_round (x / 2 ^ (L - p))
  rw [show (round (x / 2 ^ (L - p)) : ℝ) * 2 ^ (L - p) - x = (round (x / 2 ^ (L - p)) - x / 2 ^ (L - p)) * 2 ^ (L - p) by
    rw [sub_mul, div_mul_cancel₀ _ hp.ne'], abs_mul, abs_of_pos hp, abs_sub_comm]
  nlinarith

theorem nearest_sqrt_pos (p : ℕ) {x : ℝ} (hx : 0 < x) (h : nearest p x = x) : nearest p (Real.sqrt (nearest p (x * x))) = x := by
  obtain ⟨L, h1, h2⟩ : ∃ L : ℤ, (2 : ℝ) ^ L ≤ x ∧ x < 2 ^ (L + 1) :=
    ⟨Int.log 2 x, by simpa using Int.zpow_log_le_self (b := 2) (by norm_num) hx, by simpa using Int.lt_zpow_succ_log_self (b := 2) (by norm_num) x⟩
  obtain ⟨e, he⟩ : ∃ e : ℝ, e = 2 ^ L := ⟨_, rfl⟩
  obtain ⟨u, hu⟩ : ∃ u : ℝ, u = 2 ^ (L - p) := ⟨_, rfl⟩
  have he0 : 0 < e := by rw [he]; exact zpow_pos (by norm_num) _
  have hu0 : 0 < u := by rw [hu]; exact zpow_pos (by norm_num) _
  have hL1 : (2 : ℝ) ^ (L + 1) = 2 * e := by rw [zpow_add_one₀ (by norm_num), he]; ring
  have e2 : (2 : ℝ) ^ (2 * L) = e ^ 2 := by rw [he, mul_comm, zpow_mul]; norm_cast
  have e3 : (2 : ℝ) ^ (2 * L + 1) = 2 * e ^ 2 := by rw [zpow_add_one₀ (by norm_num), e2]; ring
  have e4 : (2 : ℝ) ^ (2 * L + 2) = 4 * e ^ 2 := by rw [zpow_add₀ (by norm_num), e2]; norm_num; ring
  have ue : (2 : ℝ) ^ (2 * L - p) = e * u := by rw [he, hu, ← zpow_add₀ (by norm_num)]; congr 1; ring
  have ue2 : (2 : ℝ) ^ (2 * L + 1 - p) = 2 * (e * u) := by
    rw [show 2 * L + 1 - (p : ℤ) = 2 * L - p + 1 by ring, zpow_add_one₀ (by norm_num), ue]; ring
  rw [hL1] at h2
  rw [← he] at h1
  have hround := nearest_of p (x := x) (L := L) (by rw [← he]; exact h1) (by rw [hL1]; exact h2)
  rw [h, ← hu] at hround
  obtain ⟨M, hM⟩ : ∃ M : ℤ, M = round (x / u) := ⟨_, rfl⟩
  rw [← hM] at hround
  have hye : e ^ 2 ≤ nearest p (x * x) := by
    have := nearest_mono p (show (2 : ℝ) ^ (2 * L) ≤ x * x by rw [e2]; nlinarith)
    rwa [nearest_pow, e2] at this
  obtain ⟨y, hy⟩ : ∃ y, nearest p (x * x) = y := ⟨_, rfl⟩
  rw [hy] at hye ⊢
  have hsy : e ≤ Real.sqrt y := Real.le_sqrt_of_sq_le hye
  have hss : Real.sqrt y * Real.sqrt y = y := Real.mul_self_sqrt (by nlinarith)
  -- the root is less than half a unit away from `x`
  have hclose : |Real.sqrt y - x| < u / 2 := by
    have key : ∀ B : ℝ, |y - x * x| ≤ B → B < u / 2 * (Real.sqrt y + x) → |Real.sqrt y - x| < u / 2 := by
      intro B hB hB2
      have e5 : |y - x * x| = |Real.sqrt y - x| * (Real.sqrt y + x) := by
        rw [show y - x * x = (Real.sqrt y - x) * (Real.sqrt y + x) by nlinarith, abs_mul, abs_of_pos (by linarith : 0 < Real.sqrt y + x)]
      rw [e5] at hB
      exact lt_of_mul_lt_mul_right (lt_of_le_of_lt hB hB2) (by linarith)
    by_cases hc : x * x < 2 * e ^ 2
    · have hh := nearest_half_ulp p (x := x * x) (L := 2 * L) (by rw [e2]; nlinarith) (by rw [e3]; exact hc)
      rw [hy, ue] at hh
      exact key _ hh (by nlinarith)
    · push Not at hc
      have hh := nearest_half_ulp p (x := x * x) (L := 2 * L + 1) (by rw [e3]; exact hc) (by rw [show 2 * L + 1 + 1 = 2 * L + 2 by ring, e4]; nlinarith)
      rw [hy, ue2] at hh
      have hy2 : 2 * e ^ 2 ≤ y := by
        have := nearest_mono p (show (2 : ℝ) ^ (2 * L + 1) ≤ x * x by rw [e3]; exact hc)
        rwa [nearest_pow, e3, hy] at this
      have hx2 : (7 / 5) * e ≤ x := by nlinarith
      have hs2 : (7 / 5) * e ≤ Real.sqrt y := Real.le_sqrt_of_sq_le (by nlinarith)
      exact key _ hh (by nlinarith)
  have hx_top : x ≤ 2 * e - u := by
    have hMu : (M : ℝ) * u < (2 ^ (p + 1) : ℤ) * u := by
      rw [← hround]
      have : ((2 ^ (p + 1) : ℤ) : ℝ) * u = 2 * e := by
        push_cast
        rw [hu, he, ← zpow_natCast, ← zpow_add₀ (by norm_num), show ((p + 1 : ℕ) : ℤ) + (L - p) = L + 1 by push_cast; ring, zpow_add_one₀ (by norm_num)]
        ring
      rw [this]
      exact h2
    have hM2 : M + 1 ≤ 2 ^ (p + 1) := by
      have := lt_of_mul_lt_mul_right hMu hu0.le
      exact_mod_cast this
    have hM3 : ((M : ℝ) + 1) * u ≤ (2 ^ (p + 1) : ℤ) * u := by
      refine mul_le_mul_of_nonneg_right ?_ hu0.le
      exact_mod_cast hM2
    have : ((2 ^ (p + 1) : ℤ) : ℝ) * u = 2 * e := by
      push_cast
      rw [hu, he, ← zpow_natCast, ← zpow_add₀ (by norm_num), show ((p + 1 : ℕ) : ℤ) + (L - p) = L + 1 by push_cast; ring, zpow_add_one₀ (by norm_num)]
      ring
    rw [this, add_mul, ← hround] at hM3
    linarith
  have hab := abs_lt.1 hclose
  rw [nearest_of p (x := Real.sqrt y) (L := L) (by rw [← he]; exact hsy) (by rw [hL1]; linarith), ← hu]
  have : round (Real.sqrt y / u) = M := by
    rw [round_eq, Int.floor_eq_iff]
    have hd : Real.sqrt y / u = M + (Real.sqrt y - x) / u := by
      rw [sub_div, hround, mul_div_cancel_right₀ _ hu0.ne']
      ring
    have b1 : -(1 / 2) < (Real.sqrt y - x) / u := by rw [lt_div_iff₀ hu0]; linarith
    have b2 : (Real.sqrt y - x) / u < 1 / 2 := by rw [div_lt_iff₀ hu0]; linarith
    rw [hd]
    constructor <;> linarith
  rw [this]
  exact hround.symm

/-- C168. In binary floating point with any number of bits, the square root of the rounded square of a representable number is its absolute value. -/
theorem nearest_sqrt_sq (p : ℕ) (lib : Libm) : SqrtExact (nearestRounding p lib) := by
  intro x hx
  change nearest p (Real.sqrt (nearest p (x * x))) = |x|
  change nearest p x = x at hx
  rcases lt_trichotomy x 0 with h | h | h
  · have := nearest_sqrt_pos p (x := -x) (by linarith) (by rw [nearest_neg, hx])
    rw [neg_mul_neg] at this
    rw [this, abs_of_neg h]
  · subst h
    simp [nearest_zero]
  · rw [nearest_sqrt_pos p h hx, abs_of_pos h]

/-- Rounded addition of a nonnegative number does not go below a representable number. -/
theorem rnd_add_ge {x y : ℝ} (hx : F.rnd x = x) (hy : 0 ≤ y) : x ≤ F.rnd (x + y) := by
  have := F.mono (show x ≤ x + y by linarith)
  rwa [hx] at this

theorem rnd_add_ge' {x y : ℝ} (hy : F.rnd y = y) (hx : 0 ≤ x) : y ≤ F.rnd (x + y) := by
  rw [add_comm]
  exact rnd_add_ge hy hx

/-- The computed norm is at least every component. -/
theorem vecNorm_ge (hF : SqrtExact F) (x : Fin n → ℝ) (hx : ∀ i, F.rnd (x i) = x i) (t : List (FX F)) :
    ∃ r : ℝ, vecNorm (vecF F x t) = ok (FX.of F r) ∧ F.rnd r = r ∧ 0 ≤ r ∧ ∀ i, |x i| ≤ r := by
  have hsum : ∀ m, ∃ s : ℝ, accSum (fun k => FX.of F (F.rnd (seqOf (fun i => x i * x i) k))) m = FX.of F s ∧ F.rnd s = s ∧ 0 ≤ s ∧
      ∀ k < m, F.rnd (seqOf (fun i => x i * x i) k) ≤ s := by
    have hnn : ∀ k, 0 ≤ seqOf (fun i => x i * x i) k := by
      intro k
      by_cases hk : k < n
      · rw [show k = (⟨k, hk⟩ : Fin n) from rfl, seqOf_fin]
        exact mul_self_nonneg _
      · rw [seqOf, dif_neg hk]
    intro m
    induction m with
    | zero => exact ⟨0, by simp [accSum, F.rnd_zero], F.rnd_zero, le_refl _, by simp⟩
    | succ m ih =>
      obtain ⟨s, e, h1, h2, h3⟩ := ih
      have hq := F.rnd_nonneg (hnn m)
      refine ⟨F.rnd (s + F.rnd (seqOf (fun i => x i * x i) m)), by rw [accSum, e, FX.of_add], F.idem _, F.rnd_nonneg (by linarith), ?_⟩
      intro k hk
      rcases Nat.lt_succ_iff_lt_or_eq.1 hk with hk | rfl
      · exact (h3 k hk).trans (rnd_add_ge h1 hq)
      · exact rnd_add_ge' (F.idem _) h2
  obtain ⟨s, e, h1, h2, h3⟩ := hsum n
  have hd : vecDot (vecF F x t) (vecF F x t) (lit 0) = ok (0, FX.of F s) := by
    unfold vecDot
    rw [if_neg (by simp [vecF])]
    rw [show (vecF F x t).sz = n from rfl, forN_accSum (fun k => FX.of F (F.rnd (seqOf (fun i => x i * x i) k))), e]
    · rfl
    · intro i hi a
      have hr : rd (vecF F x t).data i = ok (FX.of F (x ⟨i, hi⟩)) := by
        exact vecOf_rd (fun i => FX.of F (x i)) t ⟨i, hi⟩
      have hq : seqOf (fun i => x i * x i) i = x ⟨i, hi⟩ * x ⟨i, hi⟩ := seqOf_fin (fun i => x i * x i) ⟨i, hi⟩
      rw [hr, hq]
      rfl
  refine ⟨F.rnd (Real.sqrt s), ?_, F.idem _, F.rnd_nonneg (Real.sqrt_nonneg _), fun i => ?_⟩
  · rw [vecNorm, vecSumOfSqrs, hd, ok_bind]
    simp only [pure_eq, ok_bind]
    rw [FX.of_sqrt h2]
  · rw [← hF (x i) (hx i)]
    refine F.mono (Real.sqrt_le_sqrt ?_)
    have := h3 i i.isLt
    rwa [seqOf_fin] at this

/-- C168. In binary floating point the norm `zsl_vec_norm` returns is at least the absolute value of every element, for every vector of representable numbers. -/
theorem vec_norm_dominates (p : ℕ) (lib : Libm) (x : Fin n → ℝ) (hx : ∀ i, nearest p (x i) = x i) (t : List (FX (nearestRounding p lib))) :
    ∃ r : ℝ, vecNorm (vecF _ x t) = ok (FX.of (nearestRounding p lib) r) ∧ ∀ i, |x i| ≤ r := by
  obtain ⟨r, h1, _, _, h2⟩ := vecNorm_ge (nearest_sqrt_sq p lib) x hx t
  exact ⟨r, h1, h2⟩

theorem quatMagn_ge (hF : SqrtExact F) (q : ℍ[ℝ]) (h0 : F.rnd q.re = q.re) (h1 : F.rnd q.imI = q.imI) (h2 : F.rnd q.imJ = q.imJ) (h3 : F.rnd q.imK = q.imK) :
    ∃ m : ℝ, quatMagn (qF F q) = FX.of F m ∧ F.rnd m = m ∧ 0 ≤ m ∧ |q.re| ≤ m ∧ |q.imI| ≤ m ∧ |q.imJ| ≤ m ∧ |q.imK| ≤ m := by
  have sq := fun x : ℝ => F.rnd_nonneg (mul_self_nonneg x)
  have s1 : 0 ≤ F.rnd (F.rnd (q.re * q.re) + F.rnd (q.imI * q.imI)) := F.rnd_nonneg (add_nonneg (sq _) (sq _))
  have s2 : 0 ≤ F.rnd (F.rnd (F.rnd (q.re * q.re) + F.rnd (q.imI * q.imI)) + F.rnd (q.imJ * q.imJ)) := F.rnd_nonneg (add_nonneg s1 (sq _))
  have s3 := F.rnd_nonneg (add_nonneg s2 (sq q.imK))
  have b2 := rnd_add_ge (F.idem _) (sq q.imJ) (x := F.rnd (F.rnd (q.re * q.re) + F.rnd (q.imI * q.imI)))
  have b3 := rnd_add_ge (F.idem _) (sq q.imK) (x := F.rnd (F.rnd (F.rnd (q.re * q.re) + F.rnd (q.imI * q.imI)) + F.rnd (q.imJ * q.imJ)))
  have a0 := rnd_add_ge (F.idem (q.re * q.re)) (sq q.imI)
  have a1 := rnd_add_ge' (F.idem (q.imI * q.imI)) (sq q.re)
  have a2 := rnd_add_ge' (F.idem (q.imJ * q.imJ)) s1
  have a3 := rnd_add_ge' (F.idem (q.imK * q.imK)) s2
  have key : ∀ x : ℝ, F.rnd x = x → F.rnd (x * x) ≤ F.rnd (F.rnd (F.rnd (F.rnd (q.re * q.re) + F.rnd (q.imI * q.imI)) + F.rnd (q.imJ * q.imJ)) + F.rnd (q.imK * q.imK)) →
      |x| ≤ F.rnd (Real.sqrt (F.rnd (F.rnd (F.rnd (F.rnd (q.re * q.re) + F.rnd (q.imI * q.imI)) + F.rnd (q.imJ * q.imJ)) + F.rnd (q.imK * q.imK)))) := by
    intro x hx h
    rw [← hF x hx]
    exact F.mono (Real.sqrt_le_sqrt h)
  refine ⟨_, ?_, F.idem _, F.rnd_nonneg (Real.sqrt_nonneg _), key _ h0 ?_, key _ h1 ?_, key _ h2 ?_, key _ h3 a3⟩
  · rw [← FX.of_sqrt s3]
    rfl
  · exact a0.trans (b2.trans b3)
  · exact a1.trans (b2.trans b3)
  · exact a2.trans b3

theorem rnd_div_le {x m : ℝ} (hm : 0 < m) (h : |x| ≤ m) : |F.rnd (x / m)| ≤ 1 := by
  have h1 := abs_le.1 h
  rw [abs_le]
  constructor
  · have := F.mono (show -1 ≤ x / m by rw [le_div_iff₀ hm]; linarith)
    rwa [F.neg_one] at this
  · have := F.mono (show x / m ≤ 1 by rw [div_le_one hm]; linarith)
    rwa [F.one] at this

/-- All four components are numbers of the arithmetic. -/
def Representable (F : Rounding) (q : ℍ[ℝ]) : Prop := F.rnd q.re = q.re ∧ F.rnd q.imI = q.imI ∧ F.rnd q.imJ = q.imJ ∧ F.rnd q.imK = q.imK

theorem quatToUnit_le (hF : SqrtExact F) (q : ℍ[ℝ]) (hq : Representable F q) :
    ∃ r : ℍ[ℝ], quatToUnit (qF F q) = qF F r ∧ Representable F r ∧ |r.re| ≤ 1 ∧ |r.imI| ≤ 1 ∧ |r.imJ| ≤ 1 ∧ |r.imK| ≤ 1 := by
  obtain ⟨h0, h1, h2, h3⟩ := hq
  obtain ⟨m, hm, _, hm0, b0, b1, b2, b3⟩ := quatMagn_ge hF q h0 h1 h2 h3
  rw [quatToUnit, hm]
  by_cases h : CReal.lt (CReal.abs (FX.of F m)) (lit 1e-6 : FX F) = true
  · simp only [if_pos h]
    refine ⟨Verif.hq 0 0 0 0, by rw [lit0_F]; rfl, ⟨?_, ?_, ?_, ?_⟩, ?_, ?_, ?_, ?_⟩ <;> simp [Verif.hq, F.rnd_zero]
  · simp only [if_neg h]
    have hx0 : m ≠ 0 := by
      rintro rfl
      apply h
      rw [FX.of_abs, FX.lit_eq, FX.of_lt, abs_zero]
      exact F.rnd_pos (by norm_num)
    have hmp : 0 < m := lt_of_le_of_ne hm0 (Ne.symm hx0)
    refine ⟨Verif.hq (F.rnd (q.re / m)) (F.rnd (q.imI / m)) (F.rnd (q.imJ / m)) (F.rnd (q.imK / m)), ?_, ⟨F.idem _, F.idem _, F.idem _, F.idem _⟩,
      rnd_div_le hmp b0, rnd_div_le hmp b1, rnd_div_le hmp b2, rnd_div_le hmp b3⟩
    simp only [qF, quatF, FX.of_div hx0]
    rfl

/-- C168. In binary floating point the components of the quaternion `zsl_quat_to_unit` returns are from -1 to 1, without any error, for every quaternion of representable
numbers. -/
theorem quat_to_unit_components (p : ℕ) (lib : Libm) (q : ℍ[ℝ]) (hq : Representable (nearestRounding p lib) q) :
    ∃ r : ℍ[ℝ], quatToUnit (qF _ q) = qF (nearestRounding p lib) r ∧ |r.re| ≤ 1 ∧ |r.imI| ≤ 1 ∧ |r.imJ| ≤ 1 ∧ |r.imK| ≤ 1 := by
  obtain ⟨r, h1, _, h2⟩ := quatToUnit_le (nearest_sqrt_sq p lib) q hq
  exact ⟨r, h1, h2⟩

/-- C168. In binary floating point `zsl_quat_to_axis_angle` stores four numbers, for every quaternion of representable numbers, unless the scalar part of the normalised
quaternion is exactly -1: the root is never taken of a negative number, and the inverse cosine never of a number above one. The library's inverse cosine is assumed to give a number
for arguments from -1 to 1. -/
theorem quat_to_axis_angle_numbers (p : ℕ) (lib : Libm) {k : ℕ} (hk : AccurateAcos (nearestRounding p lib) k) (q : ℍ[ℝ]) (hq : Representable (nearestRounding p lib) q)
    (hne : (quatToUnit (qF (nearestRounding p lib) q)).r ≠ FX.of _ (-1)) (a : Fin 3 → FX (nearestRounding p lib)) (b : FX (nearestRounding p lib)) :
    ∃ (v : V3) (t : ℝ), quatToAxisAngle (qF _ q) (vecOf a []) b = ok (0, vecF _ v [], FX.of _ t) := by
  obtain ⟨r, h1, hr, h2, -⟩ := quatToUnit_le (nearest_sqrt_sq p lib) q hq
  have hr' := abs_le.1 h2
  have hne' : r.re ≠ -1 := by
    intro h
    apply hne
    rw [h1, qF, quatF, h]
  have hva : vecOf a [] = ⟨3, [a 0, a 1, a 2]⟩ := by simp [vecOf, arrOf, List.ofFn_succ]
  unfold quatToAxisAngle
  rw [if_neg (by simp [vecOf]), h1]
  by_cases hc : CReal.lt (CReal.abs ((qF (nearestRounding p lib) r).r - lit 1)) (lit 1e-6 : FX (nearestRounding p lib)) = true
  · refine ⟨![0, 0, 0], 0, ?_⟩
    simp only [if_pos hc, hva, vecF3, lit0_F]
    rfl
  · have hlt : r.re ≠ 1 := by
      intro h
      apply hc
      rw [qF, quatF, h, lit1_F, FX.of_sub, FX.of_abs, FX.lit_eq, FX.of_lt]
      rw [sub_self, (nearestRounding p lib).rnd_zero, abs_zero]
      exact (nearestRounding p lib).rnd_pos (by norm_num)
    have hsq : (nearestRounding p lib).rnd (r.re * r.re) < 1 := by
      refine lt_of_le_of_ne ?_ ?_
      · have := (nearestRounding p lib).mono (show r.re * r.re ≤ 1 by nlinarith)
        rwa [(nearestRounding p lib).one] at this
      · intro h
        have hs := nearest_sqrt_sq p lib r.re hr.1
        rw [h, Real.sqrt_one, (nearestRounding p lib).one] at hs
        rcases abs_cases r.re with ⟨h3, _⟩ | ⟨h3, _⟩
        · exact hlt (by linarith)
        · exact hne' (by linarith)
    have hpos : 0 < (nearestRounding p lib).rnd (1 - (nearestRounding p lib).rnd (r.re * r.re)) := (nearestRounding p lib).rnd_pos (by linarith)
    have hs0 : (nearestRounding p lib).rnd (Real.sqrt ((nearestRounding p lib).rnd (1 - (nearestRounding p lib).rnd (r.re * r.re)))) ≠ 0 :=
      ((nearestRounding p lib).rnd_pos (Real.sqrt_pos.2 hpos)).ne'
    obtain ⟨s, hs⟩ : ∃ s, (nearestRounding p lib).rnd (Real.sqrt ((nearestRounding p lib).rnd (1 - (nearestRounding p lib).rnd (r.re * r.re)))) = s := ⟨_, rfl⟩
    rw [hs] at hs0
    obtain ⟨t, ht, _⟩ := hk r.re hr'.1 hr'.2
    have hac : CReal.acos (FX.of (nearestRounding p lib) r.re) = FX.of _ t := by
      change (⟨(nearestRounding p lib).lib.fn1 "acos" (XR.fin r.re)⟩ : FX (nearestRounding p lib)) = _
      rw [ht]
      rfl
    refine ⟨![(nearestRounding p lib).rnd (r.imI / s), (nearestRounding p lib).rnd (r.imJ / s), (nearestRounding p lib).rnd (r.imK / s)],
      (nearestRounding p lib).rnd ((nearestRounding p lib).rnd 2 * t), ?_⟩
    simp only [if_neg hc]
    rw [hva]
    simp only [qF, quatF, lit1_F, FX.of_mul, FX.of_sub]
    rw [FX.of_sqrt hpos.le, hs, FX.of_div hs0, FX.of_div hs0, FX.of_div hs0, hac, FX.lit_eq, FX.of_mul]
    rw [vecF3]
    norm_num [wr]
    rfl

theorem vecToUnit_num (v : V3) : ∃ w : V3, vecToUnit (vecF F v []) = ok (0, vecF F w []) := by
  by_cases hv : v = 0
  · subst hv
    have hn : vecNorm (vecF F (0 : V3) []) = ok (FX.of F 0) := by
      rw [vecNorm, vecSumOfSqrs, vecDot3_F, ok_bind]
      simp only [pure_eq, ok_bind, Pi.zero_apply, mul_zero, F.rnd_zero, add_zero]
      rw [FX.of_sqrt (le_refl _), Real.sqrt_zero, F.rnd_zero]
    refine ⟨![1, 0, 0], ?_⟩
    rw [vecToUnit, hn, ok_bind, if_neg (by rw [lit0_F, FX.of_ne]; simp), vec_init_correct (vecF F (0 : V3) []) (vecOf_wf _ _), ok_bind]
    simp [vecF3, wr, F.rnd_zero, F.one]
  · obtain ⟨y, e, _⟩ := vec_to_unit_rounding F v hv []
    exact ⟨y, e⟩

/-- C168. In binary floating point `zsl_quat_log` stores four numbers for every quaternion of representable numbers other than zero: the inverse cosine is never taken of a number
outside -1 to 1. The library is assumed to give numbers for the inverse cosine from -1 to 1 and for the logarithm of positive numbers. -/
theorem quat_log_numbers (p : ℕ) (lib : Libm) {k : ℕ} (hk : AccurateAcos (nearestRounding p lib) k)
    (hl : ∀ x : ℝ, 0 < x → ∃ t, lib.fn1 "log" (XR.fin x) = XR.fin t) (q : ℍ[ℝ]) (hq : Representable (nearestRounding p lib) q) (h0 : q ≠ 0) :
    ∃ r : ℍ[ℝ], quatLog (qF (nearestRounding p lib) q) = ok (qF _ r) := by
  obtain ⟨m, hm, _, hm0, b0, b1, b2, b3⟩ := quatMagn_ge (nearest_sqrt_sq p lib) q hq.1 hq.2.1 hq.2.2.1 hq.2.2.2
  have hmp : 0 < m := by
    refine lt_of_le_of_ne hm0 fun h => h0 ?_
    rw [← h] at b0 b1 b2 b3
    ext
    · exact abs_nonpos_iff.1 b0
    · exact abs_nonpos_iff.1 b1
    · exact abs_nonpos_iff.1 b2
    · exact abs_nonpos_iff.1 b3
  obtain ⟨w, hw⟩ := vecToUnit_num (F := nearestRounding p lib) ![q.imI, q.imJ, q.imK]
  have hc := abs_le.1 (rnd_div_le (F := nearestRounding p lib) hmp b0)
  obtain ⟨t, ht, _⟩ := hk _ hc.1 hc.2
  obtain ⟨l, hl'⟩ := hl m hmp
  have hac : CReal.acos (FX.of (nearestRounding p lib) ((nearestRounding p lib).rnd (q.re / m))) = FX.of _ t := by
    change (⟨(nearestRounding p lib).lib.fn1 "acos" (XR.fin ((nearestRounding p lib).rnd (q.re / m)))⟩ : FX (nearestRounding p lib)) = _
    rw [ht]
    rfl
  have hlog : CReal.log (FX.of (nearestRounding p lib) m) = FX.of _ l := by
    change (⟨lib.fn1 "log" (XR.fin m)⟩ : FX (nearestRounding p lib)) = _
    rw [hl']
    rfl
  rw [vecF3] at hw
  refine ⟨Verif.hq l ((nearestRounding p lib).rnd (w 0 * t)) ((nearestRounding p lib).rnd (w 1 * t)) ((nearestRounding p lib).rnd (w 2 * t)), ?_⟩
  unfold quatLog
  rw [hm]
  change (vecToUnit (⟨3, [FX.of _ q.imI, FX.of _ q.imJ, FX.of _ q.imK]⟩ : Vec (FX (nearestRounding p lib)))).bind _ = _
  change vecToUnit (⟨3, [FX.of _ q.imI, FX.of _ q.imJ, FX.of _ q.imK]⟩ : Vec (FX (nearestRounding p lib))) = _ at hw
  obtain ⟨r0, r1, r2⟩ := vec3F_rd (F := nearestRounding p lib) w
  rw [hw]
  change (do
    let v0 ← rd (vecF (nearestRounding p lib) w []).data 0
    let v1 ← rd (vecF (nearestRounding p lib) w []).data 1
    let v2 ← rd (vecF (nearestRounding p lib) w []).data 2
    return (⟨_, _, _, _⟩ : Quat (FX (nearestRounding p lib)))) = _
  rw [r0, r1, r2]
  simp only [ok_bind, pure_eq]
  rw [show (qF (nearestRounding p lib) q).r = FX.of _ q.re from rfl, FX.of_div hmp.ne', hac, hlog]
  rfl

/-- Quaternions of small whole numbers are representable, in double precision. -/
example (lib : Libm) : Representable (nearestRounding 52 lib) (hq 1 2 3 4) := by
  refine ⟨?_, ?_, ?_, ?_⟩
  · exact_mod_cast nearest_nat 52 1 (by norm_num)
  · exact_mod_cast nearest_nat 52 2 (by norm_num)
  · exact_mod_cast nearest_nat 52 3 (by norm_num)
  · exact_mod_cast nearest_nat 52 4 (by norm_num)

/-- A library that meets the assumptions on the inverse cosine and on the logarithm. -/
example : ∃ lib : Libm, AccurateAcos (nearestRounding 52 lib) 0 ∧ ∀ x : ℝ, 0 < x → ∃ t, lib.fn1 "log" (XR.fin x) = XR.fin t := by
  refine ⟨⟨fun s x => if s = "acos" then CReal.acos x else CReal.log x, fun x _ => x, fun x _ => x⟩, fun x h1 h2 => ⟨Real.arccos x, ?_, Near.refl _ _⟩, fun x hx => ⟨Real.log x, ?_⟩⟩
  · exact XR.fin_acos ⟨h1, h2⟩
  · exact XR.fin_log hx

end Verif
