import Verif.Model.Probability
import Verif.Spec.Probability
import Verif.Props.Stat1
import Mathlib.Probability.Distributions.Gaussian.Real
import Mathlib.Analysis.SpecialFunctions.Integrals.Basic
import Mathlib.Analysis.SpecialFunctions.Log.NegMulLog

/-!
# Probability: uniform distribution, Bayes (C49, C52)
-/

namespace Verif

open Out MeasureTheory

theorem einvalR_eq : (einvalR : XR) = .fin (-22) := by
  rw [einvalR, XR.ofInt_eq]; norm_num [EINVAL]

/-! ## Uniform -/

/-- The density of the uniform distribution. -/
noncomputable def uniF (a b : ℝ) : ℝ → ℝ := (Set.Icc a b).indicator fun _ => 1 / (b - a)

theorem uni_pdf_val {a b : ℝ} (h : a < b) (x : ℝ) : probUniPdf (.fin a) (.fin b) (XR.fin x) = .fin (uniF a b x) := by
  rw [probUniPdf, if_neg (by rw [XR.fin_ge]; exact not_le.2 h), uniF]
  by_cases hx : x ∈ Set.Icc a b
  · rw [if_pos (by rw [Bool.and_eq_true, XR.fin_ge, XR.fin_le]; exact hx), Set.indicator_of_mem hx, XR.lit_eq, XR.fin_sub,
      XR.fin_div (sub_pos.2 h).ne']
    norm_num
  · rw [if_neg (by rw [Bool.and_eq_true, XR.fin_ge, XR.fin_le]; exact hx), Set.indicator_of_notMem hx, XR.lit_eq]
    norm_num

/-- The distribution function of the uniform distribution. -/
noncomputable def uniCdf (a b x : ℝ) : ℝ := if x < a then 0 else if b < x then 1 else (x - a) / (b - a)

theorem uni_cdf_val {a b : ℝ} (h : a < b) (x : ℝ) : probUniCdf (.fin a) (.fin b) (XR.fin x) = .fin (uniCdf a b x) := by
  rw [probUniCdf, if_neg (by rw [XR.fin_ge]; exact not_le.2 h), uniCdf]
  by_cases h1 : x < a
  · rw [if_neg (by rw [Bool.and_eq_true, XR.fin_ge, XR.fin_le]; exact fun h => absurd h.1 (not_le.2 h1)),
      if_pos (by rw [XR.fin_lt]; exact h1), if_pos h1, XR.lit_eq]
    norm_num
  · by_cases h2 : b < x
    · rw [if_neg (by rw [Bool.and_eq_true, XR.fin_ge, XR.fin_le]; exact fun h => absurd h.2 (not_le.2 h2)),
        if_neg (by rw [XR.fin_lt]; exact h1), if_neg h1, if_pos h2, XR.lit_eq]
      norm_num
    · rw [if_pos (by rw [Bool.and_eq_true, XR.fin_ge, XR.fin_le]; exact ⟨not_lt.1 h1, not_lt.1 h2⟩), if_neg h1, if_neg h2,
        XR.fin_sub, XR.fin_sub, XR.fin_div (sub_pos.2 h).ne']

theorem uniF_integral {a b : ℝ} (h : a < b) (g : ℝ → ℝ) : ∫ x, g x * uniF a b x = (∫ x in a..b, g x) / (b - a) := by
  have e : (fun x => g x * uniF a b x) = (Set.Icc a b).indicator fun x => g x * (1 / (b - a)) := by
    funext x
    by_cases hx : x ∈ Set.Icc a b
    · simp only [uniF, Set.indicator_of_mem hx]
    · simp only [uniF, Set.indicator_of_notMem hx, mul_zero]
  rw [e, integral_indicator measurableSet_Icc, integral_Icc_eq_integral_Ioc, ← intervalIntegral.integral_of_le h.le,
    intervalIntegral.integral_mul_const]
  ring

theorem uniF_total {a b : ℝ} (h : a < b) : ∫ x, uniF a b x = 1 := by
  have e := uniF_integral h fun _ => 1
  simp only [one_mul, intervalIntegral.integral_const, smul_eq_mul, mul_one] at e
  rw [e, div_self (sub_pos.2 h).ne']

theorem uniF_cdf {a b : ℝ} (h : a < b) (x : ℝ) : uniCdf a b x = ∫ t in Set.Iic x, uniF a b t := by
  have hd := sub_pos.2 h
  rw [uniF, setIntegral_indicator measurableSet_Icc, setIntegral_const, smul_eq_mul,
    show Set.Iic x ∩ Set.Icc a b = Set.Icc a (min x b) by
      ext t; simp only [Set.mem_inter_iff, Set.mem_Iic, Set.mem_Icc, le_min_iff]; tauto,
    Real.volume_real_Icc, uniCdf]
  split_ifs with h1 h2
  · rw [min_eq_left (h1.trans h).le, max_eq_right (by linarith), zero_mul]
  · rw [min_eq_right h2.le, max_eq_left hd.le]; field_simp
  · rw [min_eq_left (not_lt.1 h2), max_eq_left (by linarith [not_lt.1 h1])]; field_simp

/-- C49: for `a < b` the pdf and the cdf are a probability density and its integral; the cdf is monotone, 0 up to `a`, 1 from `b` on. -/
theorem uni_distribution {a b : ℝ} (h : a < b) :
    ∃ f F : ℝ → ℝ, (∀ x, probUniPdf (.fin a) (.fin b) (XR.fin x) = .fin (f x)) ∧
      (∀ x, probUniCdf (.fin a) (.fin b) (XR.fin x) = .fin (F x)) ∧ IsDistribution f F ∧ Monotone F ∧ (∀ x ≤ a, F x = 0) ∧
      (∀ x, b ≤ x → F x = 1) ∧ (∀ x, a ≤ x → x ≤ b → ∀ y, a ≤ y → y ≤ b → f x = f y) := by
  have hd := sub_pos.2 h
  have hn : ∀ x, 0 ≤ uniF a b x := fun x => Set.indicator_nonneg (fun _ _ => (one_div_pos.2 hd).le) x
  refine ⟨uniF a b, uniCdf a b, uni_pdf_val h, uni_cdf_val h, ⟨hn, uniF_total h, uniF_cdf h⟩, ?_, ?_, ?_, ?_⟩
  · intro x y hxy
    have hi : Integrable (uniF a b) := by
      by_contra hi
      have := integral_undef hi
      rw [uniF_total h] at this
      exact one_ne_zero this
    rw [uniF_cdf h, uniF_cdf h]
    exact setIntegral_mono_set hi.integrableOn (Filter.Eventually.of_forall hn)
      (Filter.Eventually.of_forall fun t (ht : t ≤ x) => ht.trans hxy)
  · intro x hx
    rw [uniCdf]
    split_ifs with h1 h2
    · rfl
    · linarith
    · rw [le_antisymm hx (not_lt.1 h1), sub_self, zero_div]
  · intro x hx
    rw [uniCdf, if_neg (by linarith)]
    split_ifs with h2
    · rfl
    · rw [le_antisymm (not_lt.1 h2) hx, div_self hd.ne']
  · intro x h1 h2 y h3 h4
    rw [uniF, Set.indicator_of_mem (show x ∈ Set.Icc a b from ⟨h1, h2⟩), Set.indicator_of_mem (show y ∈ Set.Icc a b from ⟨h3, h4⟩)]

example : (2 : ℝ) < 5 := by norm_num

/-- C49: mean and variance are the first moment and the second central moment of the pdf. -/
theorem uni_moments {a b : ℝ} (h : a < b) (m0 v0 : XR) :
    ∃ f : ℝ → ℝ, (∀ x, probUniPdf (.fin a) (.fin b) (XR.fin x) = .fin (f x)) ∧
      ∃ m v : ℝ, probUniMean (.fin a) (.fin b) m0 = (0, .fin m) ∧ probUniVar (.fin a) (.fin b) v0 = (0, .fin v) ∧
      m = ∫ x, x * f x ∧ v = ∫ x, (x - m) ^ 2 * f x := by
  have hd := sub_pos.2 h
  refine ⟨uniF a b, uni_pdf_val h, (a + b) / 2, (b - a) ^ 2 / 12, ?_, ?_, ?_, ?_⟩
  · rw [probUniMean, if_neg (by rw [XR.fin_ge]; exact not_le.2 h), XR.lit_eq, XR.fin_add, XR.fin_mul]
    refine Prod.ext rfl (XR.fin_inj.2 ?_)
    push_cast; ring
  · rw [probUniVar, if_neg (by rw [XR.fin_ge]; exact not_le.2 h), XR.lit_eq, XR.fin_sub, XR.fin_mul, XR.fin_div (by norm_num)]
    refine Prod.ext rfl (XR.fin_inj.2 ?_)
    push_cast; ring
  · rw [uniF_integral h, integral_id]; field_simp; ring
  · rw [uniF_integral h fun x => (x - (a + b) / 2) ^ 2, intervalIntegral.integral_comp_sub_right (fun x => x ^ 2), integral_pow]
    field_simp; norm_num; ring

/-- C49: `a >= b` is reported as `-EINVAL`: the number -22 from pdf and cdf, the return code with the output left alone otherwise. -/
theorem uni_rejects {a b : ℝ} (h : b ≤ a) (x m v : XR) :
    probUniPdf (.fin a) (.fin b) x = .fin (-22) ∧ probUniCdf (.fin a) (.fin b) x = .fin (-22) ∧
      probUniMean (.fin a) (.fin b) m = (-22, m) ∧ probUniVar (.fin a) (.fin b) v = (-22, v) := by
  have hc : CReal.ge (XR.fin a) (XR.fin b) = true := by rw [XR.fin_ge]; exact h
  rw [probUniPdf, probUniCdf, probUniMean, probUniVar, if_pos hc, if_pos hc, if_pos hc, if_pos hc, einvalR_eq]
  exact ⟨rfl, rfl, rfl, rfl⟩

/-! ## Bayes -/

/-- C52: a posterior that is returned lies in `[0, 1]` and satisfies `P(A|B) P(B) = P(B|A) P(A)`. -/
theorem bayes_posterior {pa pb pba : ℝ} {pab : XR} (h : (probBayes (.fin pa) (.fin pb) (.fin pba) pab).1 = 0) :
    ∃ q : ℝ, probBayes (.fin pa) (.fin pb) (.fin pba) pab = (0, .fin q) ∧ 0 ≤ q ∧ q ≤ 1 ∧ q * pb = pba * pa := by
  rw [probBayes] at h ⊢
  split_ifs at h ⊢ with h1 h2 h3
  · exact absurd h (by simp [EINVAL])
  · exact absurd h (by simp [EINVAL])
  · exact absurd h (by simp [EINVAL])
  · simp only [Bool.or_eq_true, XR.lit_eq, XR.fin_lt, XR.fin_gt, XR.fin_le, XR.fin_mul] at h1 h2 h3
    push_cast at h1 h2 h3
    push Not at h1 h2 h3
    refine ⟨pba * pa / pb, by rw [XR.fin_mul, XR.fin_div h2.1.1.ne'], ?_, ?_, div_mul_cancel₀ _ h2.1.1.ne'⟩
    · exact div_nonneg (mul_nonneg h3.1 h1.1) h2.1.1.le
    · rw [div_le_one h2.1.1, mul_comm]; exact h2.2

/-- C52: the inputs that are accepted are exactly the consistent ones; every other input gives `-EINVAL` and writes nothing. -/
theorem bayes_accepts (pa pb pba : ℝ) (pab : XR) :
    ((0 ≤ pa ∧ pa ≤ 1) ∧ (0 < pb ∧ pb ≤ 1) ∧ (0 ≤ pba ∧ pba ≤ 1) ∧ pa * pba ≤ pb →
      (probBayes (.fin pa) (.fin pb) (.fin pba) pab).1 = 0) ∧
    (¬((0 ≤ pa ∧ pa ≤ 1) ∧ (0 < pb ∧ pb ≤ 1) ∧ (0 ≤ pba ∧ pba ≤ 1) ∧ pa * pba ≤ pb) →
      probBayes (.fin pa) (.fin pb) (.fin pba) pab = (-22, pab)) := by
  constructor
  · rintro ⟨h1, h2, h3, h4⟩
    rw [probBayes, if_neg, if_neg, if_neg] <;>
      simp only [Bool.or_eq_true, XR.lit_eq, XR.fin_lt, XR.fin_gt, XR.fin_le, XR.fin_mul] <;> push_cast <;> push Not
    · exact h3
    · exact ⟨h2, h4⟩
    · exact h1
  · intro h
    rw [probBayes]
    split_ifs with h1 h2 h3
    · rfl
    · rfl
    · rfl
    · simp only [Bool.or_eq_true, XR.lit_eq, XR.fin_lt, XR.fin_gt, XR.fin_le, XR.fin_mul] at h1 h2 h3
      push_cast at h1 h2 h3
      push Not at h1 h2 h3
      exact absurd ⟨h1, h2.1, h3, h2.2⟩ h

example : ∃ q : ℝ, probBayes (XR.fin 0.5) (.fin 0.4) (.fin 0.6) (.fin 7) = (0, .fin q) ∧ q = 0.75 := by
  obtain ⟨q, h1, _, _, h2⟩ := bayes_posterior ((bayes_accepts 0.5 0.4 0.6 (.fin 7)).1 (by norm_num))
  exact ⟨q, h1, by norm_num at h2 ⊢; linarith⟩

end Verif
