import Verif.Props.Prob3
import Mathlib.RingTheory.Polynomial.Bernstein
import Mathlib.Data.Nat.Factorial.BigOperators

/-!
# Probability: factorials and the binomial distribution (C50, C51)
-/

namespace Verif

open Out

/-! ## Factorials -/

theorem fact_loop (n : ℕ) (k : ℕ) (hk : k + 1 ≤ n) :
    forN k (fun i' n2 => toInt (n2 * ((n : ℤ) - ((i' : ℤ) + 1)))) (n : ℤ) =
      if k = 0 ∨ n.descFactorial (k + 1) ≤ 2147483647 then ok (n.descFactorial (k + 1) : ℤ) else ub := by
  induction k with
  | zero => rw [if_pos (Or.inl rfl)]; simp [forN]
  | succ k ih =>
    have hs : (n.descFactorial (k + 2) : ℤ) = n.descFactorial (k + 1) * ((n : ℤ) - ((k : ℤ) + 1)) := by
      rw [Nat.descFactorial_succ]
      push_cast [Nat.cast_sub (by omega : k + 1 ≤ n)]
      ring
    rw [forN_succ, ih (by omega)]
    by_cases h : k = 0 ∨ n.descFactorial (k + 1) ≤ 2147483647
    · rw [if_pos h, ok_bind, ← hs, toInt]
      by_cases h2 : n.descFactorial (k + 2) ≤ 2147483647
      · rw [if_pos ⟨by omega, by exact_mod_cast h2⟩, if_pos (Or.inr h2)]
      · rw [if_neg fun h => h2 (by exact_mod_cast h.2), if_neg fun h => h2 (h.resolve_left (by omega))]
    · rw [if_neg h, if_neg]
      · rfl
      · push Not at h ⊢
        refine ⟨by omega, ?_⟩
        have : n.descFactorial (k + 1) ≤ n.descFactorial (k + 2) := by
          rw [Nat.descFactorial_succ n (k + 1)]
          exact Nat.le_mul_of_pos_left _ (by omega)
        exact h.2.trans_le this

theorem factorial_val (n : ℕ) :
    probFactorial n = if n < 2 ∨ n.factorial ≤ 2147483647 then ok (n.factorial : ℤ) else ub := by
  rcases Nat.lt_or_ge n 2 with h | h
  · rw [if_pos (Or.inl h)]
    interval_cases n <;> rfl
  · rw [probFactorial, if_neg (by omega), if_neg (by omega), Int.toNat_natCast, fact_loop n (n - 1) (by omega),
      show n - 1 + 1 = n by omega, Nat.descFactorial_self]
    exact if_congr (by omega) rfl rfl

theorem fact_le {n : ℕ} (h : n ≤ 12) : n.factorial ≤ 479001600 := (Nat.factorial_le h).trans (by decide)

/-- C50: `zsl_prob_factorial` returns `n!` for `n` up to 12. -/
theorem factorial_correct {n : ℕ} (h : n ≤ 12) : probFactorial n = ok (n.factorial : ℤ) := by
  rw [factorial_val, if_pos (Or.inr ((fact_le h).trans (by norm_num)))]

example : probFactorial 12 = ok 479001600 := factorial_correct (n := 12) (by norm_num)

/-- C50: from 13 on the computation overflows. -/
theorem factorial_overflow {n : ℕ} (h : 13 ≤ n) : probFactorial n = ub := by
  rw [factorial_val, if_neg]
  push Not
  exact ⟨by omega, lt_of_lt_of_le (by decide) (Nat.factorial_le h)⟩

/-- C50: negative arguments give `-EINVAL`. -/
theorem factorial_negative {n : ℤ} (h : n < 0) : probFactorial n = ok (-22) := by
  rw [probFactorial, if_neg (by omega), if_pos h]; rfl

/-! ## Binomial coefficients -/

/-- C50: `zsl_prob_binomial_coef` computes `n` choose `k` for `k <= n <= 12`. -/
theorem binomial_coef_correct {n k : ℕ} (hk : k ≤ n) (hn : n ≤ 12) (c : ℤ) :
    probBinomialCoef n k c = ok (0, (n.choose k : ℤ)) := by
  have hd : k.factorial * (n - k).factorial ≤ n.factorial := by
    rw [← Nat.choose_mul_factorial_mul_factorial hk, mul_assoc]
    exact Nat.le_mul_of_pos_left _ (Nat.choose_pos hk)
  have hd' := hd.trans (fact_le hn)
  have hpos : 0 < k.factorial * (n - k).factorial := by positivity
  rw [probBinomialCoef, if_neg (by omega), if_neg (by omega)]
  have e1 : toInt ((n : ℤ) - k) = ok ((n - k : ℕ) : ℤ) := by
    rw [toInt, if_pos (by omega), Nat.cast_sub hk]
  have e2 : toInt ((k.factorial : ℤ) * ((n - k).factorial : ℤ)) = ok ((k.factorial * (n - k).factorial : ℕ) : ℤ) := by
    rw [toInt, ← Nat.cast_mul, if_pos]
    exact ⟨by omega, by exact_mod_cast hd'.trans (by norm_num)⟩
  rw [e1, ok_bind, factorial_correct hn, ok_bind, factorial_correct (hk.trans hn), ok_bind,
    factorial_correct ((Nat.sub_le n k).trans hn), ok_bind, e2, ok_bind, if_neg (by exact_mod_cast hpos.ne'), pure_eq,
    ← Int.ofNat_eq_natCast, ← Int.ofNat_eq_natCast, Nat.choose_eq_factorial_div_factorial hk]
  rfl

/-- C50: outside `0..n` the coefficient is 0. -/
theorem binomial_coef_outside {n k : ℤ} (hn : 0 ≤ n) (hk : k < 0 ∨ n < k) (c : ℤ) : probBinomialCoef n k c = ok (0, 0) := by
  rw [probBinomialCoef, if_neg (by omega), if_pos (by omega)]

/-- C50: a negative `n` gives `-EINVAL` and writes nothing. -/
theorem binomial_coef_negative {n : ℤ} (hn : n < 0) (k c : ℤ) : probBinomialCoef n k c = ok (-22, c) := by
  rw [probBinomialCoef, if_pos hn]; rfl

/-- C50: inside `0..n` with `n` above 12 the factorial overflows, even where the coefficient itself would fit. -/
theorem binomial_coef_overflow {n k : ℕ} (hk : k ≤ n) (hn : 13 ≤ n) (hm : n ≤ 2147483647) (c : ℤ) : probBinomialCoef n k c = ub := by
  rw [probBinomialCoef, if_neg (by omega), if_neg (by omega), toInt, if_pos (by omega), ok_bind, factorial_overflow hn]
  rfl

example : probBinomialCoef 10 4 77 = ok (0, 210) := binomial_coef_correct (n := 10) (k := 4) (by norm_num) (by norm_num) 77

/-! ## Binomial distribution -/

theorem binomBad_false {n : ℕ} {p : ℝ} (h0 : 0 ≤ p) (h1 : p ≤ 1) : binomBad n (XR.fin p) = false := by
  rw [binomBad, Bool.or_eq_false_iff, Bool.or_eq_false_iff, XR.lit_eq, XR.lit_eq, XR.fin_gt_false, XR.fin_lt_false]
  push_cast
  exact ⟨⟨h1, h0⟩, by simp⟩

theorem one_sub_fin (p : ℝ) : lit 1 - XR.fin p = XR.fin (1 - p) := by rw [XR.lit_eq, XR.fin_sub]; push_cast; rfl

theorem binomTerm_in {n k : ℕ} (hk : k ≤ n) (hn : n ≤ 12) (p : ℝ) (c0 : ℤ) :
    binomTerm c0 n (XR.fin p) k = ok (.fin (binom n p k)) := by
  rw [binomTerm, binomial_coef_correct hk hn, ok_bind]
  dsimp only
  rw [toInt, if_pos (by omega), ok_bind, pure_eq, XR.ofInt_eq, XR.ofInt_eq, XR.ofInt_eq, one_sub_fin, Int.cast_natCast, Int.cast_natCast,
    show (((n : ℤ) - (k : ℤ) : ℤ) : ℝ) = ((n - k : ℕ) : ℝ) by push_cast [Nat.cast_sub hk]; ring, XR.fin_pow_nat, XR.fin_pow_nat,
    XR.fin_mul, XR.fin_mul, binom]

theorem binom_nonneg (n : ℕ) {p : ℝ} (h0 : 0 ≤ p) (h1 : p ≤ 1) (k : ℕ) : 0 ≤ binom n p k :=
  mul_nonneg (mul_nonneg (Nat.cast_nonneg _) (pow_nonneg h0 _)) (pow_nonneg (by linarith) _)

theorem binom_eval (n k : ℕ) (p : ℝ) : (bernsteinPolynomial ℝ n k).eval p = binom n p k := by
  simp [bernsteinPolynomial, binom]

theorem binom_sum (n : ℕ) (p : ℝ) : ∑ k ∈ Finset.range (n + 1), binom n p k = 1 := by
  have h := congrArg (Polynomial.eval p) (bernsteinPolynomial.sum ℝ n)
  simpa [Polynomial.eval_finsetSum, binom_eval] using h

theorem binom_mean (n : ℕ) (p : ℝ) : ∑ k ∈ Finset.range (n + 1), (k : ℝ) * binom n p k = n * p := by
  have h := congrArg (Polynomial.eval p) (bernsteinPolynomial.sum_smul ℝ n)
  simpa [Polynomial.eval_finsetSum, binom_eval, nsmul_eq_mul] using h

theorem binom_var (n : ℕ) (p : ℝ) : ∑ k ∈ Finset.range (n + 1), ((k : ℝ) - n * p) ^ 2 * binom n p k = n * p * (1 - p) := by
  have h := congrArg (Polynomial.eval p) (bernsteinPolynomial.variance ℝ n)
  simp [Polynomial.eval_finsetSum, binom_eval, nsmul_eq_mul] at h
  rw [← h]
  exact Finset.sum_congr rfl fun k _ => by ring

/-- C51: for `0 <= p <= 1` and `0 <= x <= n <= 12` the pdf is the binomial probability; it is nonnegative and sums to one. -/
theorem binomial_pdf_correct {n : ℕ} (hn : n ≤ 12) {p : ℝ} (h0 : 0 ≤ p) (h1 : p ≤ 1) (c0 : ℤ) :
    (∀ k ≤ n, probBinomialPdf c0 n (XR.fin p) k = ok (.fin (binom n p k))) ∧ (∀ k, 0 ≤ binom n p k) ∧
      ∑ k ∈ Finset.range (n + 1), binom n p k = 1 := by
  refine ⟨fun k hk => ?_, binom_nonneg n h0 h1, binom_sum n p⟩
  rw [probBinomialPdf, binomBad_false h0 h1]
  exact binomTerm_in hk hn p c0

/-- C51: mean and variance are the moments of that pdf (for every `n`). -/
theorem binomial_moments (n : ℕ) {p : ℝ} (h0 : 0 ≤ p) (h1 : p ≤ 1) (m0 v0 : XR) :
    ∃ m v : ℝ, probBinomialMean n (XR.fin p) m0 = (0, .fin m) ∧ probBinomialVar n (XR.fin p) v0 = (0, .fin v) ∧
      m = ∑ k ∈ Finset.range (n + 1), (k : ℝ) * binom n p k ∧ v = ∑ k ∈ Finset.range (n + 1), ((k : ℝ) - m) ^ 2 * binom n p k := by
  refine ⟨n * p, n * p * (1 - p), ?_, ?_, (binom_mean n p).symm, (binom_var n p).symm⟩
  · rw [probBinomialMean, binomBad_false h0 h1, XR.ofInt_eq]; simp
  · rw [probBinomialVar, binomBad_false h0 h1, XR.ofInt_eq, one_sub_fin]; simp

theorem cdf_loop {n : ℕ} {p : ℝ} (c0 : ℤ) (g : ℕ → ℝ) (m : ℕ) (hg : ∀ i < m, ∀ c, binomTerm c n (XR.fin p) i = ok (.fin (g i))) :
    ∃ c : ℤ, forN m (fun i (s : XR × Int) => do
      let (_, c) ← probBinomialCoef n i s.2
      let e ← toInt ((n : ℤ) - i)
      return (s.1 + CReal.ofInt c * CReal.pow (XR.fin p) (CReal.ofInt i) * CReal.pow (lit 1 - XR.fin p) (CReal.ofInt e), c))
        (lit 0, c0) = ok (.fin (∑ i ∈ Finset.range m, g i), c) := by
  induction m with
  | zero => exact ⟨c0, by simp⟩
  | succ m ih =>
    obtain ⟨c, hc⟩ := ih fun i hi => hg i (by omega)
    have ht := hg m (by omega) c
    rw [binomTerm] at ht
    rw [forN_succ, hc, ok_bind]
    dsimp only at ht ⊢
    rcases h1 : probBinomialCoef n m c with ⟨r, c'⟩ | _
    · rw [h1, ok_bind] at ht
      rw [ok_bind]
      dsimp only at ht ⊢
      rcases h2 : toInt ((n : ℤ) - m) with e | _
      · rw [h2, ok_bind, pure_eq] at ht
        rw [ok_bind, pure_eq, Out.ok.inj ht, Finset.sum_range_succ, XR.fin_add]
        exact ⟨c', rfl⟩
      · rw [h2] at ht; exact absurd ht (by simp)
    · rw [h1] at ht; exact absurd ht (by simp)

theorem binomial_cdf_sum {n : ℕ} {p : ℝ} (h0 : 0 ≤ p) (h1 : p ≤ 1) (c0 : ℤ) (g : ℕ → ℝ) (x : ℕ)
    (hg : ∀ i < x + 1, ∀ c, binomTerm c n (XR.fin p) i = ok (.fin (g i))) :
    probBinomialCdf c0 n (XR.fin p) x = ok (.fin (∑ i ∈ Finset.range (x + 1), g i)) := by
  rw [probBinomialCdf, binomBad_false h0 h1, if_neg (by simp), if_neg (by omega), Int.toNat_natCast]
  obtain ⟨c, hc⟩ := cdf_loop c0 g (x + 1) hg
  rw [hc]
  rfl

/-- C51: the cdf is the running sum of the pdf: in `[0, 1]`, monotone, and 1 at `n`; it is 0 below 0. -/
theorem binomial_cdf_correct {n : ℕ} (hn : n ≤ 12) {p : ℝ} (h0 : 0 ≤ p) (h1 : p ≤ 1) (c0 : ℤ) :
    ∃ F : ℕ → ℝ, (∀ x ≤ n, probBinomialCdf c0 n (XR.fin p) x = ok (.fin (F x))) ∧
      (∀ x ≤ n, F x = ∑ k ∈ Finset.range (x + 1), binom n p k) ∧ Monotone F ∧ (∀ x ≤ n, 0 ≤ F x ∧ F x ≤ 1) ∧ F n = 1 ∧
      ∀ x : ℤ, x < 0 → probBinomialCdf c0 n (XR.fin p) x = ok (.fin 0) := by
  have hm : Monotone fun x : ℕ => ∑ k ∈ Finset.range (x + 1), binom n p k := fun x y h =>
    Finset.sum_le_sum_of_subset_of_nonneg (Finset.range_mono (by omega)) fun k _ _ => binom_nonneg n h0 h1 k
  refine ⟨fun x => ∑ k ∈ Finset.range (x + 1), binom n p k, fun x hx => ?_, fun _ _ => rfl, hm, fun x hx => ⟨?_, ?_⟩, binom_sum n p,
    fun x hx => ?_⟩
  · exact binomial_cdf_sum h0 h1 c0 _ x fun i hi c => binomTerm_in (by omega) hn p c
  · exact Finset.sum_nonneg fun k _ => binom_nonneg n h0 h1 k
  · exact (hm hx).trans_eq (binom_sum n p)
  · rw [probBinomialCdf, binomBad_false h0 h1, if_neg (by simp), if_pos hx]; simp

/-- C51: a probability outside `[0, 1]` or a negative `n` is reported by all four functions. -/
theorem binomial_rejects {n : ℤ} {p : ℝ} (h : p < 0 ∨ 1 < p ∨ n < 0) (c0 x : ℤ) (m v : XR) :
    probBinomialPdf c0 n (XR.fin p) x = ok (.fin (-22)) ∧ probBinomialCdf c0 n (XR.fin p) x = ok (.fin (-22)) ∧
      probBinomialMean n (XR.fin p) m = (-22, m) ∧ probBinomialVar n (XR.fin p) v = (-22, v) := by
  have hb : binomBad n (XR.fin p) = true := by
    rw [binomBad, Bool.or_eq_true, Bool.or_eq_true, XR.lit_eq, XR.lit_eq, XR.fin_gt, XR.fin_lt, decide_eq_true_eq]
    push_cast
    tauto
  rw [probBinomialPdf, probBinomialCdf, probBinomialMean, probBinomialVar, if_pos hb, if_pos hb, if_pos hb, if_pos hb, einvalR_eq]
  exact ⟨rfl, rfl, rfl, rfl⟩

/-! ### Outside of `0..n` -/

theorem pow_fin_pos {x : ℝ} (hx : 0 < x) (e : ℤ) : CReal.pow (XR.fin x) (CReal.ofInt e) = .fin (x ^ (e : ℝ)) := by
  rw [XR.ofInt_eq, XR.fin_pow_pos _ hx]

theorem binomTerm_out {n x : ℤ} (hn : 0 ≤ n) (hx : n < x) (hm : x ≤ 2147483647) {p : ℝ} (h0 : 0 ≤ p) (h1 : p < 1) (c0 : ℤ) :
    binomTerm c0 n (XR.fin p) x = ok (.fin 0) := by
  rw [binomTerm, binomial_coef_outside hn (Or.inr hx), ok_bind]
  dsimp only
  rw [toInt, if_pos (by omega), ok_bind, pure_eq, one_sub_fin, pow_fin_pos (show 0 < 1 - p by linarith), XR.ofInt_eq]
  obtain ⟨k, rfl⟩ := Int.eq_ofNat_of_zero_le (by omega : 0 ≤ x)
  rw [XR.ofInt_eq, Int.cast_natCast, XR.fin_pow_nat]
  simp

/-- C51: the values beyond `n` are right when `p < 1`: the pdf is 0 and the cdf is 1. What is missing: for `p = 1` both are NaN. -/
theorem binomial_beyond_partial {n x : ℕ} (hn : n ≤ 12) (hx : n < x) (hm : x ≤ 2147483647) {p : ℝ} (h0 : 0 ≤ p) (h1 : p < 1) (c0 : ℤ) :
    probBinomialPdf c0 n (XR.fin p) x = ok (.fin 0) ∧ probBinomialCdf c0 n (XR.fin p) x = ok (.fin 1) := by
  constructor
  · rw [probBinomialPdf, binomBad_false h0 h1.le]
    exact binomTerm_out (by omega) (by omega) (by omega) h0 h1 c0
  · have h := binomial_cdf_sum h0 h1.le c0 (fun i => if i ≤ n then binom n p i else 0) x fun i hi c => by
      by_cases hin : i ≤ n
      · rw [if_pos hin]; exact binomTerm_in hin hn p c
      · rw [if_neg hin]; exact binomTerm_out (by omega) (by omega) (by omega) h0 h1 c
    rw [h]
    congr 2
    rw [← binom_sum n p, ← Finset.sum_filter]
    congr 1
    ext i
    simp only [Finset.mem_filter, Finset.mem_range]
    omega

/-- C51: for a certain event (`p = 1`) the pdf beyond `n` is `0 * pow(0, negative)`, a NaN, where the probability is 0. -/
theorem binomial_pdf_nan {n x : ℕ} (hx : n < x) (hm : x ≤ 2147483647) (c0 : ℤ) :
    probBinomialPdf c0 n (XR.fin 1) x = ok .nan := by
  rw [probBinomialPdf, binomBad_false zero_le_one le_rfl, if_neg (by simp), binomTerm, binomial_coef_outside (by omega) (by omega), ok_bind]
  dsimp only
  rw [toInt, if_pos (by omega), ok_bind, pure_eq, one_sub_fin, pow_fin_pos one_pos, XR.ofInt_eq, XR.ofInt_eq, sub_self, XR.fin_mul]
  have e : CReal.pow (XR.fin 0) (XR.fin (((n : ℤ) - (x : ℤ) : ℤ) : ℝ)) = XR.pinf := by
    have hneg : (((n : ℤ) - (x : ℤ) : ℤ) : ℝ) < 0 := by exact_mod_cast (by omega : (n : ℤ) - (x : ℤ) < 0)
    show XR.pow _ _ = _
    rw [XR.pow, if_neg (lt_irrefl _), if_pos rfl, if_neg (not_lt.2 hneg.le), if_neg hneg.ne]
  rw [e]
  congr 1
  show XR.infOf _ = _
  simp [XR.infOf]

example : probBinomialPdf 0 (3 : ℕ) (XR.fin 1) (4 : ℕ) = ok .nan := binomial_pdf_nan (by norm_num) (by norm_num) 0

end Verif
