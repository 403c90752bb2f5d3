import Verif.Props.Prob1

/-!
# Probability: entropy and the normal distribution (C53, C54, C85)
-/

namespace Verif

open Out MeasureTheory ProbabilityTheory

/-! ## Entropy -/

theorem sumRet {n : ℕ} {f : ℕ → XR → Out (Ctl XR Unit)} (x : ℕ → ℝ) (s : ℝ)
    (hf : ∀ i, i < n → ∀ t : ℝ, f i (.fin t) = ok (if x i < 0 then .ret () else .next (.fin (t + x i)))) :
    forRet n f (.fin s) = ok (if ∃ i < n, x i < 0 then .ret () else .next (.fin (s + ∑ i ∈ Finset.range n, x i))) := by
  classical
  induction n with
  | zero => simp
  | succ n ih =>
    rw [forRet, ih fun i hi => hf i (by omega)]
    by_cases h : ∃ i < n, x i < 0
    · obtain ⟨i, hi, hx⟩ := h
      rw [if_pos ⟨i, hi, hx⟩, if_pos ⟨i, by omega, hx⟩]; rfl
    · rw [if_neg h, ok_bind]
      refine (hf n (by omega) _).trans ?_
      by_cases h2 : x n < 0
      · rw [if_pos h2, if_pos ⟨n, by omega, h2⟩]
      · rw [if_neg h2, if_neg, Finset.sum_range_succ, add_assoc]
        rintro ⟨i, hi, hx⟩
        rcases Nat.lt_succ_iff_lt_or_eq.1 hi with h3 | h3
        · exact h ⟨i, h3, hx⟩
        · exact h2 (h3 ▸ hx)

variable {n : ℕ}

theorem fin_zero_mul_ninf : XR.fin 0 * XR.ninf = XR.nan := by
  show XR.infOf (-0) = XR.nan
  rw [XR.infOf, neg_zero, if_neg (lt_irrefl _), if_neg (lt_irrefl _)]

theorem fin_sub_nan (a : ℝ) : XR.fin a - XR.nan = XR.nan := rfl

/-- The first loop of the entropy function: negative entries end it, otherwise the sum minus one comes out. -/
theorem entropy_sum (x : Fin n → ℝ) (t : List XR) :
    (forRet (vec x t).sz (fun i sum => do
      let a ← rd (vec x t).data i
      if CReal.lt a (lit 0) then return Ctl.ret () else return Ctl.next (sum + a)) (lit (-1)) : Out (Ctl XR Unit)) =
    ok (if ∃ i, x i < 0 then .ret () else .next (.fin (∑ i, x i - 1))) := by
  classical
  have h := sumRet (n := n) (f := fun i sum => do
      let a ← rd (vec x t).data i
      if CReal.lt a (lit 0) then return Ctl.ret () else return Ctl.next (sum + a)) (fun i => if h : i < n then x ⟨i, h⟩ else 0) (-1) ?_
  · rw [vec_sz, show (lit (-1) : XR) = .fin (-1) by rw [XR.lit_eq]; push_cast; rfl, h]
    congr 1
    have e : (∃ i < n, (if h : i < n then x ⟨i, h⟩ else 0) < 0) ↔ ∃ i, x i < 0 := by
      constructor
      · rintro ⟨i, hi, h⟩
        rw [dif_pos hi] at h
        exact ⟨_, h⟩
      · rintro ⟨i, h⟩
        exact ⟨i, i.2, by rw [dif_pos i.2]; exact h⟩
    rw [if_congr e rfl rfl, Finset.sum_range]
    simp only [Fin.is_lt, dite_true, Fin.eta]
    rw [show (-1 : ℝ) + ∑ i, x i = ∑ i, x i - 1 by ring]
  · intro i hi s
    rw [dif_pos hi]
    refine (congrArg (fun o => o >>= _) (vec_rd x t ⟨i, hi⟩)).trans ?_
    rw [ok_bind]
    by_cases hx : x ⟨i, hi⟩ < 0
    · rw [if_pos (by rw [XR.lit_eq, XR.fin_lt]; push_cast; exact hx), if_pos hx]; rfl
    · rw [if_neg (by rw [XR.lit_eq, XR.fin_lt]; push_cast; exact hx), if_neg hx]; rfl

/-- C53: negative entries and sums away from 1 are rejected with `-EINVAL`, and nothing is written. -/
theorem entropy_rejects (x : Fin n → ℝ) (t : List XR) (h : XR) (hx : (∃ i, x i < 0) ∨ 1e-6 < |∑ i, x i - 1|) :
    probEntropy (vec x t) h = ok (-22, h) := by
  classical
  rw [probEntropy, entropy_sum, ok_bind]
  by_cases hn : ∃ i, x i < 0
  · rw [if_pos hn]; rfl
  · rw [if_neg hn]
    dsimp only
    rw [if_pos]
    · rfl
    · rw [XR.fin_abs, XR.lit_eq, XR.fin_gt, show (((1e-6 : ℚ)) : ℝ) = 1e-6 by norm_num]
      exact hx.resolve_left hn

/-- The second loop, which becomes a NaN at the first zero entry. -/
theorem entropy_loop (x : Fin n → ℝ) (t : List XR) (hx : ∀ i, 0 ≤ x i) :
    forN n (fun i (h : XR) => do
      let a ← rd (vec x t).data i
      return h - a * CReal.log a) (lit 0) =
    ok (if ∀ i, 0 < x i then .fin (∑ i, -(x i * Real.log (x i))) else .nan) := by
  classical
  let xs : ℕ → ℝ := fun i => if h : i < n then x ⟨i, h⟩ else 1
  have hxs : ∀ i (h : i < n), xs i = x ⟨i, h⟩ := fun i h => dif_pos h
  refine (forN_eq (fun k => if ∀ i < k, 0 < xs i then XR.fin (∑ i ∈ Finset.range k, -(xs i * Real.log (xs i))) else .nan)
    ?_ ?_).trans ?_
  · simp
  · intro i hi
    refine (congrArg (fun o => o >>= _) (vec_rd x t ⟨i, hi⟩)).trans ?_
    rw [ok_bind, pure_eq, ← hxs i hi]
    congr 1
    by_cases h0 : ∀ j < i, 0 < xs j
    · rw [if_pos h0]
      by_cases h1 : 0 < xs i
      · rw [if_pos, XR.fin_log h1, XR.fin_mul, XR.fin_sub, Finset.sum_range_succ, sub_eq_add_neg]
        intro j hj
        rcases Nat.lt_succ_iff_lt_or_eq.1 hj with h3 | h3
        · exact h0 j h3
        · exact h3 ▸ h1
      · have hz : xs i = 0 := le_antisymm (not_lt.1 h1) (by rw [hxs i hi]; exact hx _)
        rw [if_neg (fun h => h1 (h i (by omega))), hz, XR.fin_log_zero]
        rw [fin_zero_mul_ninf, fin_sub_nan]
    · rw [if_neg h0, if_neg fun h => h0 fun j hj => h j (by omega)]
      rfl
  · have e : (∀ i < n, 0 < xs i) ↔ ∀ i, 0 < x i :=
      ⟨fun h i => by have := h i i.2; rwa [hxs i i.2] at this, fun h i hi => by rw [hxs i hi]; exact h _⟩
    rw [if_congr e rfl rfl, Finset.sum_range]
    congr 4
    funext i
    rw [hxs i i.2]

theorem entropy_val (x : Fin n → ℝ) (t : List XR) (h : XR) (hx : ∀ i, 0 ≤ x i) (hs : |∑ i, x i - 1| ≤ 1e-6) :
    probEntropy (vec x t) h = ok (0, if ∀ i, 0 < x i then .fin (shannon x) else .nan) := by
  classical
  have hl2 : Real.log 2 ≠ 0 := (Real.log_pos (by norm_num)).ne'
  rw [probEntropy, entropy_sum, ok_bind, if_neg (by push Not; exact hx)]
  dsimp only
  rw [if_neg (by rw [XR.fin_abs, XR.lit_eq, XR.fin_gt, show (((1e-6 : ℚ)) : ℝ) = 1e-6 by norm_num]; exact not_lt.2 hs), vec_sz,
    entropy_loop x t hx, ok_bind, pure_eq, XR.lit_eq, XR.fin_log (by norm_num)]
  congr 2
  by_cases hp : ∀ i, 0 < x i
  · rw [if_pos hp, if_pos hp, show ((2 : ℚ) : ℝ) = 2 by norm_num, XR.fin_div hl2, shannon, Finset.sum_div]
    congr 2
    funext i
    rw [Real.logb]; ring
  · rw [if_neg hp, if_neg hp]; rfl

/-- C53: full support: the value is the Shannon entropy in bits. What is missing: distributions with a zero entry, for which the
value is a NaN (next theorem). -/
theorem entropy_correct_partial (x : Fin n → ℝ) (t : List XR) (h : XR) (hx : ∀ i, 0 < x i) (hs : |∑ i, x i - 1| ≤ 1e-6) :
    probEntropy (vec x t) h = ok (0, .fin (shannon x)) := by
  rw [entropy_val x t h (fun i => (hx i).le) hs, if_pos hx]

/-- C53: the claim fails as soon as one outcome has probability zero: `0 * log 0` makes the result a NaN, and 0 is returned. -/
theorem entropy_zero_outcome (x : Fin n → ℝ) (t : List XR) (h : XR) (hx : ∀ i, 0 ≤ x i) (hs : |∑ i, x i - 1| ≤ 1e-6) {i : Fin n}
    (hi : x i = 0) : probEntropy (vec x t) h = ok (0, .nan) := by
  rw [entropy_val x t h hx hs, if_neg fun hp => (hp i).ne' hi]

/-- C53: the certain outcome of two possible ones does not have entropy zero. -/
theorem entropy_certain_nan (h : XR) : probEntropy (vec ![1, 0] []) h = ok (0, .nan) :=
  entropy_zero_outcome _ _ _ (by intro i; fin_cases i <;> simp) (by norm_num [Fin.sum_univ_two]) (i := 1) rfl

/-- C53: the entropy of a probability vector with full support lies between 0 and `log₂ n`. -/
theorem entropy_bounds (x : Fin n → ℝ) (t : List XR) (h : XR) (hx : ∀ i, 0 < x i) (hs : ∑ i, x i = 1) :
    ∃ H : ℝ, probEntropy (vec x t) h = ok (0, .fin H) ∧ 0 ≤ H ∧ H ≤ Real.logb 2 n := by
  refine ⟨shannon x, entropy_correct_partial x t h hx (by rw [hs]; norm_num), ?_, ?_⟩
  · refine Finset.sum_nonneg fun i _ => ?_
    have h1 : x i ≤ 1 := hs ▸ Finset.single_le_sum (fun j _ => (hx j).le) (Finset.mem_univ i)
    rw [← mul_neg]
    refine mul_nonneg (hx i).le (neg_nonneg.2 ?_)
    rw [Real.logb]
    exact div_nonpos_of_nonpos_of_nonneg (Real.log_nonpos (hx i).le h1) (Real.log_pos (by norm_num)).le
  · have hn : 0 < n := by
      rcases Nat.eq_zero_or_pos n with h0 | h0
      · subst h0; simp at hs
      · exact h0
    have hn' : (0 : ℝ) < n := by exact_mod_cast hn
    have j := Real.concaveOn_negMulLog.le_map_sum (t := Finset.univ) (w := fun _ : Fin n => (1 / n : ℝ)) (p := x)
      (fun _ _ => by positivity) (by simp [hn'.ne']) (fun i _ => (hx i).le)
    simp only [smul_eq_mul, ← Finset.mul_sum, hs, mul_one] at j
    rw [show shannon x = (∑ i, (x i).negMulLog) / Real.log 2 by
      rw [shannon, Finset.sum_div]
      refine Finset.sum_congr rfl fun i _ => ?_
      rw [Real.negMulLog, Real.logb]; ring, Real.logb]
    refine div_le_div_of_nonneg_right ?_ (Real.log_pos (by norm_num)).le
    rw [Real.negMulLog, one_div, Real.log_inv] at j
    have := mul_le_mul_of_nonneg_left j hn'.le
    field_simp at this
    linarith

/-- C53: one sure outcome has entropy zero. -/
theorem entropy_sure (t : List XR) (h : XR) : probEntropy (vec (fun _ : Fin 1 => (1 : ℝ)) t) h = ok (0, .fin 0) := by
  rw [entropy_correct_partial _ t h (fun _ => by norm_num) (by norm_num)]
  simp [shannon]

/-- C53: `n` equally likely outcomes have entropy `log₂ n`. -/
theorem entropy_uniform (hn : 0 < n) (t : List XR) (h : XR) :
    probEntropy (vec (fun _ : Fin n => (1 / n : ℝ)) t) h = ok (0, .fin (Real.logb 2 n)) := by
  have hn' : (0 : ℝ) < n := by exact_mod_cast hn
  rw [entropy_correct_partial _ t h (fun _ => by positivity) (by simp [hn'.ne']; norm_num)]
  simp only [shannon, Finset.sum_const, Finset.card_univ, Fintype.card_fin, nsmul_eq_mul, one_div, Real.logb_inv]
  congr 3
  field_simp

example : probEntropy (vec (fun _ : Fin 8 => (1 / (8 : ℕ) : ℝ)) []) (.fin 5) = ok (0, .fin (Real.logb 2 (8 : ℕ))) :=
  entropy_uniform (by norm_num) _ _

/-! ## Normal distribution -/

/-- The density as the code computes it, with its constants for pi and e. -/
noncomputable def normF (m s x : ℝ) : ℝ :=
  (1 / (s * √(2 * 3.14159265359))) * (2.71828182845 : ℝ) ^ (-0.5 * ((x - m) / s) * ((x - m) / s))

theorem normal_pdf_val {s : ℝ} (hs : s ≠ 0) (m x : ℝ) : probNormalPdf (XR.fin m) (.fin s) (.fin x) = .fin (normF m s x) := by
  have hq : 0 < √(2 * 3.14159265359 : ℝ) := Real.sqrt_pos.2 (by norm_num)
  rw [probNormalPdf, zslPi, zslE, XR.lit_eq, XR.lit_eq, XR.lit_eq, XR.lit_eq, XR.lit_eq, XR.fin_mul, XR.fin_sqrt (by norm_num),
    XR.fin_mul, XR.fin_sub, XR.fin_div hs, XR.fin_neg, XR.fin_mul, XR.fin_mul, XR.fin_pow_pos _ (by norm_num)]
  rw [show (((2 : ℚ) : ℝ) * ((3.14159265359 : ℚ) : ℝ)) = 2 * 3.14159265359 by norm_num, XR.fin_div (mul_ne_zero hs hq.ne'), XR.fin_mul,
    normF]
  norm_num

/-- C54: the pdf is positive. -/
theorem normal_pdf_pos {s : ℝ} (hs : 0 < s) (m x : ℝ) : ∃ y : ℝ, probNormalPdf (XR.fin m) (.fin s) (.fin x) = .fin y ∧ 0 < y := by
  refine ⟨_, normal_pdf_val hs.ne' m x, ?_⟩
  have hq : 0 < √(2 * 3.14159265359 : ℝ) := Real.sqrt_pos.2 (by norm_num)
  unfold normF
  positivity

/-- C54: the pdf is symmetric around the mean. -/
theorem normal_pdf_symm {s : ℝ} (hs : 0 < s) (m d : ℝ) :
    probNormalPdf (XR.fin m) (.fin s) (.fin (m + d)) = probNormalPdf (XR.fin m) (.fin s) (.fin (m - d)) := by
  rw [normal_pdf_val hs.ne', normal_pdf_val hs.ne', normF, normF]
  congr 3
  ring

/-- C54: the pdf falls strictly with the distance from the mean. -/
theorem normal_pdf_unimodal {s : ℝ} (hs : 0 < s) (m : ℝ) {x x' : ℝ} (h : |x - m| < |x' - m|) :
    ∃ y y' : ℝ, probNormalPdf (XR.fin m) (.fin s) (.fin x) = .fin y ∧ probNormalPdf (XR.fin m) (.fin s) (.fin x') = .fin y' ∧
      y' < y := by
  refine ⟨_, _, normal_pdf_val hs.ne' m x, normal_pdf_val hs.ne' m x', ?_⟩
  have hq : 0 < √(2 * 3.14159265359 : ℝ) := Real.sqrt_pos.2 (by norm_num)
  unfold normF
  refine mul_lt_mul_of_pos_left (Real.rpow_lt_rpow_of_exponent_lt (by norm_num) ?_) (by positivity)
  have h2 := sq_lt_sq.2 h
  have h3 : ((x - m) / s) ^ 2 < ((x' - m) / s) ^ 2 := by
    rw [div_pow, div_pow]
    exact div_lt_div_of_pos_right h2 (by positivity)
  nlinarith

example : |(1 : ℝ) - 2| < |(4 : ℝ) - 2| := by norm_num

theorem horner_fin (l : List ℚ) (a t : ℝ) :
    l.foldl (fun p q => CReal.fma p (XR.fin t) (lit q)) (XR.fin a) = .fin (l.foldl (fun (p : ℝ) (q : ℚ) => p * t + (q : ℝ)) a) := by
  induction l generalizing a with
  | nil => rfl
  | cons q l ih =>
    rw [List.foldl_cons, List.foldl_cons, XR.lit_eq, XR.fin_fma]
    exact ih _

open scoped Classical in
/-- The polynomial in `log (1 - x²)` that `zsl_prob_erf_inv` multiplies with `x`. -/
noncomputable def erfInvPoly (t : ℝ) : ℝ :=
  if 6.125 < |t| then erfInvTail.foldl (fun (p : ℝ) (q : ℚ) => p * t + (q : ℝ)) ((3.03697567e-10 : ℚ) : ℝ)
  else erfInvMid.foldl (fun (p : ℝ) (q : ℚ) => p * t + (q : ℝ)) ((5.43877832e-9 : ℚ) : ℝ)

theorem erf_inv_val {x : ℝ} (h1 : -1 < x) (h2 : x < 1) :
    probErfInv (XR.fin x) = .fin (x * erfInvPoly (Real.log (1 - x ^ 2))) := by
  have hp : 0 < 1 - x ^ 2 := by nlinarith
  rw [probErfInv, if_neg (by
    rw [Bool.or_eq_true, XR.lit_eq, XR.lit_eq, XR.fin_le, XR.fin_ge]; push_cast; push Not; exact ⟨h1, h2⟩)]
  rw [show CReal.fma (XR.fin x) (lit 0 - .fin x) (lit 1) = XR.fin (1 - x ^ 2) by
    rw [XR.lit_eq, XR.lit_eq, XR.fin_sub, XR.fin_fma]; push_cast; ring_nf, XR.fin_log hp]
  dsimp only
  rw [erfInvPoly, XR.fin_abs]
  by_cases h : 6.125 < |Real.log (1 - x ^ 2)|
  · rw [if_pos (by rw [XR.lit_eq, XR.fin_gt, show (((6.125 : ℚ)) : ℝ) = 6.125 by norm_num]; exact h), if_pos h, XR.lit_eq, horner_fin,
      XR.fin_mul]
  · rw [if_neg (by rw [XR.lit_eq, XR.fin_gt, show (((6.125 : ℚ)) : ℝ) = 6.125 by norm_num]; exact h), if_neg h, XR.lit_eq, horner_fin,
      XR.fin_mul]

/-- The two polynomials are positive where they are used. -/
theorem erfInvPoly_pos {t : ℝ} (ht : t ≤ 0) : 0 < erfInvPoly t := by
  have key : ∀ u : ℝ, 0 ≤ u → 0 < erfInvPoly (-u) := by
    intro u hu
    rw [erfInvPoly, abs_neg, abs_of_nonneg hu]
    split_ifs with h
    · simp only [erfInvTail, List.foldl_cons, List.foldl_nil]
      norm_num
      have e1 : 0 ≤ u ^ 6 * (3.03697567e-10 * (u - 48.2) ^ 2) := by positivity
      have e2 : 0 ≤ u ^ 4 * (5e-7 * (u - 29) ^ 2) := by positivity
      have e3 : 0 ≤ u ^ 2 * (-3.9e-4 * 0 + 3.5e-4 * (u - 4.3) ^ 2) := by positivity
      nlinarith
    · have h6 := not_lt.1 h
      simp only [erfInvMid, List.foldl_cons, List.foldl_nil]
      norm_num
      have p2 : u ^ 2 ≤ 6.125 ^ 2 := pow_le_pow_left₀ hu h6 2
      have p3 : u ^ 3 ≤ 6.125 ^ 3 := pow_le_pow_left₀ hu h6 3
      have p6 : u ^ 6 ≤ 6.125 ^ 6 := pow_le_pow_left₀ hu h6 6
      have p8 : u ^ 8 ≤ 6.125 ^ 8 := pow_le_pow_left₀ hu h6 8
      have q2 := mul_le_mul_of_nonneg_left p2 hu
      have q3 := mul_le_mul_of_nonneg_left p3 hu
      have q6 := mul_le_mul_of_nonneg_left p6 hu
      have q8 := mul_le_mul_of_nonneg_left p8 hu
      have r2 : 0 ≤ u ^ 2 := by positivity
      have r5 : 0 ≤ u ^ 5 := by positivity
      have r6 : 0 ≤ u ^ 6 := by positivity
      have r8 : 0 ≤ u ^ 8 := by positivity
      norm_num at q2 q3 q6 q8
      nlinarith
  have := key (-t) (by linarith)
  rwa [neg_neg] at this

end Verif
