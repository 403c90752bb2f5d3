import Verif.Props.Range1
import Verif.Model.Quaternions

/-!
# Overflow and underflow in means, matrix products and quaternions (C138, C140, C141)
-/

namespace Verif

open Out

variable {G : Format} {n p q : ℕ}

/-! ### Arithmetic mean -/

theorem BX.ofNat_eq (k : ℕ) : (CReal.ofNat k : BX G) = ⟨G.rnd (k : ℝ)⟩ := by
  rw [CReal.ofNat, BX.lit_eq, Rat.cast_natCast]

theorem vecArMean_B (G : Format) (x : Fin n → ℝ) (hn : 0 < n) (t : List (BX G)) (m : BX G) :
    vecArMean (vecB G x t) m = ok (0, accSum (fun k => BX.of G (seqOf x k)) n / CReal.ofNat n) := by
  unfold vecArMean
  rw [show (vecB G x t).sz = n from rfl, if_neg (by omega), forN_accSum (fun k => BX.of G (seqOf x k))]
  · rfl
  · intro i hi a
    have h1 := vecOf_rd (fun i => BX.of G (x i)) t ⟨i, hi⟩
    simp only at h1
    unfold vecB
    rw [h1, ok_bind]
    simp [seqOf, hi]

/-- C140. If the sum of the absolute values stays below the largest number, the mean is finite and has a small error. The number of elements is assumed to be a number of the
format (up to `2 ^ 53` in double precision). -/
theorem vec_ar_mean_in_range_partial (G : Format) (x : Fin n → ℝ) (hn : 0 < n) (hr : G.rnd n = XR.fin n) (t : List (BX G)) (m : BX G)
    (h : (1 + G.u) ^ n * ((∑ i, |x i|) + n * G.tiny) ≤ G.top) :
    ∃ r : ℝ, vecArMean (vecB G x t) m = ok (0, BX.of G r) ∧
      |r - (∑ i, x i) / n| ≤ ((1 + G.u) ^ (n + 1) - 1) * ((∑ i, |x i|) / n) + 2 * G.tiny * (1 + G.u) ^ (n + 1) := by
  have hu := G.u_nonneg
  have hη := G.tiny_pos
  have hg := one_le_grow G n
  have hn1 : (1 : ℝ) ≤ n := by exact_mod_cast hn
  have hn0 : (0 : ℝ) < n := by linarith
  obtain ⟨S, eS⟩ := accPlain_fin G (seqOf x) n (by rwa [sum_abs_seqOf])
  have hS := accPlain_err G (seqOf x) n S eS
  rw [sum_seqOf, sum_abs_seqOf] at hS
  have hA : 0 ≤ ∑ i, |x i| := Finset.sum_nonneg fun _ _ => abs_nonneg _
  have hP : |∑ i, x i| ≤ ∑ i, |x i| := Finset.abs_sum_le_sum_abs _ _
  have hSA : |S| ≤ (1 + G.u) ^ n * ((∑ i, |x i|) + n * G.tiny) := by
    rw [abs_le] at hS hP ⊢
    constructor <;> linarith [hS.1, hS.2, hP.1, hP.2]
  have hdiv : |S / n| ≤ G.top := by
    rw [abs_div, abs_of_pos hn0, div_le_iff₀ hn0]
    have := G.one_le_top
    nlinarith
  obtain ⟨r, er, -, hre⟩ := G.in_range hdiv
  refine ⟨r, ?_, ?_⟩
  · rw [vecArMean_B G x hn, eS, BX.ofNat_eq, hr]
    change ok ((0 : Int), BX.of G S / BX.of G n) = _
    rw [BX.of_div hn0.ne', er]
    rfl
  · rw [abs_div, abs_of_pos hn0] at hre
    have h1 : |S / n - (∑ i, x i) / n| ≤ (((1 + G.u) ^ n - 1) * (∑ i, |x i|) + n * G.tiny * (1 + G.u) ^ n) / n := by
      rw [← sub_div, abs_div, abs_of_pos hn0]
      exact div_le_div_of_nonneg_right hS hn0.le
    have h2 : (((1 + G.u) ^ n - 1) * (∑ i, |x i|) + n * G.tiny * (1 + G.u) ^ n) / n =
        ((1 + G.u) ^ n - 1) * ((∑ i, |x i|) / n) + G.tiny * (1 + G.u) ^ n := by field_simp
    have h3 : |S| / n ≤ (1 + G.u) ^ n * ((∑ i, |x i|) / n) + (1 + G.u) ^ n * G.tiny := by
      rw [div_le_iff₀ hn0]
      refine hSA.trans (le_of_eq ?_)
      field_simp
    have h4 := mul_le_mul_of_nonneg_left h3 hu
    rw [h2] at h1
    rw [pow_succ]
    generalize (∑ i, |x i|) / n = A at *
    generalize (1 + G.u) ^ n = g at *
    have h5 : 0 ≤ G.tiny * (g * (1 + G.u) - 1) := mul_nonneg hη.le (by nlinarith)
    rw [abs_le] at h1 hre ⊢
    constructor <;> nlinarith [h1.1, h1.2, hre.1, hre.2]

/-- Partial sums of numbers that are not negative do not decrease. -/
theorem accPlain_ge (G : Format) (f : ℕ → ℝ) (hf : ∀ k, 0 ≤ f k) (i : ℕ) (hi : G.rnd (f i) = XR.fin (f i)) : ∀ n, i < n → ∀ s,
    accSum (fun k => BX.of G (f k)) n = BX.of G s → f i ≤ s
  | 0, h, _, _ => absurd h (by omega)
  | n + 1, h, s, e => by
    obtain ⟨a, b, e1, e2, e3⟩ := BX.add_fin (e : accSum _ n + _ = _)
    have e2 := BX.of_inj e2
    subst e2
    rcases Nat.lt_succ_iff_lt_or_eq.1 h with h' | rfl
    · have ih := accPlain_ge G f hf i hi n h' a e1
      exact G.mono (f i) (a + f n) _ _ (by linarith [hf n]) hi e3
    · rcases accPlain_pos G f hf i with ⟨c, hc, ec⟩ | ec
      · rw [e1] at ec
        rw [BX.of_inj ec] at e3
        exact G.mono (f i) (c + f i) _ _ (by linarith) hi e3
      · rw [e1] at ec
        have := congrArg BX.val ec
        simp at this

theorem accPlain_inf_of (G : Format) (f : ℕ → ℝ) (k : ℕ) : ∀ n, k ≤ n → accSum (fun k => BX.of G (f k)) k = ⟨XR.pinf⟩ →
    accSum (fun k => BX.of G (f k)) n = ⟨XR.pinf⟩
  | 0, h, e => by
    have : k = 0 := by omega
    rwa [this] at e
  | n + 1, h, e => by
    rcases Nat.lt_succ_iff_lt_or_eq.1 (Nat.lt_succ_of_le h) with h' | h'
    · change accSum _ n + _ = _
      rw [accPlain_inf_of G f k n (by omega) e]
      rfl
    · rwa [h'] at e

/-- C140. The mean of numbers that are not negative overflows as soon as two of them have a sum that overflows, although the mean is not larger than the largest of
them. -/
theorem vec_ar_mean_overflow (G : Format) (x : Fin n → ℝ) (hx : ∀ i, 0 ≤ x i) (i j : Fin n) (hij : i < j) (hi : G.rnd (x i) = XR.fin (x i))
    (h : G.over ≤ x i + x j) (hn : (n : ℝ) ≤ G.top) (t : List (BX G)) (m : BX G) :
    vecArMean (vecB G x t) m = ok (0, ⟨XR.pinf⟩) := by
  have hp := seqOf_nonneg x hx
  have hs : accSum (fun k => BX.of G (seqOf x k)) (j + 1) = ⟨XR.pinf⟩ := by
    change accSum _ j + BX.of G (seqOf x j) = _
    rcases accPlain_pos G (seqOf x) hp j with ⟨s, hs, e⟩ | e
    · have hge := accPlain_ge G (seqOf x) hp i (by rwa [seqOf_fin]) j hij s e
      rw [seqOf_fin] at hge
      rw [e, seqOf_fin, BX.of_add, G.pinf_of _ (by linarith)]
    · rw [e]
      rfl
  have hs := accPlain_inf_of G (seqOf x) _ n j.isLt hs
  have hn0 : (0 : ℝ) ≤ n := by positivity
  obtain ⟨r, er, -⟩ := G.fin_of (n : ℝ) (by rwa [abs_of_nonneg hn0])
  have hr := G.nonneg hn0 er
  rw [vecArMean_B G x (by have := j.isLt; omega), hs, BX.ofNat_eq, er]
  congr 2
  apply BX.val_inj
  rw [BX.div_val]
  change (BX.rd G (XR.div XR.pinf (XR.fin r))).val = _
  simp only [XR.div]
  rw [if_neg (by linarith)]
  rfl

/-- The largest number, twice: its mean is infinite. -/
example (G : Format) (hG : G.over ≤ 2 * G.top) (h2 : 2 ≤ G.top) (m : BX G) :
    vecArMean (vecB G ![G.top, G.top] []) m = ok (0, ⟨XR.pinf⟩) := by
  have h0 := G.one_le_top
  refine vec_ar_mean_overflow G ![G.top, G.top] ?_ 0 1 (by decide) G.rnd_top ?_ (by simpa using h2) [] m
  · intro i
    fin_cases i <;> (change 0 ≤ G.top; linarith)
  · change G.over ≤ G.top + G.top
    linarith

/-- Double precision is such a format. -/
example (lib : Libm) : (double lib).over ≤ 2 * (double lib).top ∧ 2 ≤ (double lib).top := by
  have h := double_top lib
  constructor
  · rw [double_over, show (2 : ℝ) ^ 1024 = 2 ^ 1023 * 2 from pow_succ _ _, mul_comm]
    linarith
  · exact le_trans (by simpa using pow_le_pow_right₀ (by norm_num : (1 : ℝ) ≤ 2) (by norm_num : 1 ≤ 1023)) h

/-! ### Matrix products -/

/-- C138. If the sums of the absolute products stay below the largest number, the matrix product is finite and its elements have small errors. -/
theorem mtx_mult_in_range (G : Format) (A : Matrix (Fin p) (Fin n) ℝ) (B : Matrix (Fin n) (Fin q) ℝ) (C : Matrix (Fin p) (Fin q) (BX G))
    (t s w : List (BX G)) (h : ∀ i j, (1 + G.u) ^ (n + 1) * ((∑ k, |A i k * B k j|) + 2 * n * G.tiny) ≤ G.top) :
    ∃ D : Matrix (Fin p) (Fin q) ℝ, mtxMult (matB G A t) (matB G B s) (mtxOf C w) = ok (0, matB G D w) ∧
      ∀ i j, |D i j - (A * B) i j| ≤ ((1 + G.u) ^ (n + 1) - 1) * (∑ k, |A i k * B k j|) + 2 * n * G.tiny * (1 + G.u) ^ (n + 1) := by
  have key : ∀ (i : Fin p) (j : Fin q), ∃ r : ℝ, accSum (fun k => ext (A.map (BX.of G)) i k * ext (B.map (BX.of G)) k j) n = BX.of G r ∧
      |r - (A * B) i j| ≤ ((1 + G.u) ^ (n + 1) - 1) * (∑ k, |A i k * B k j|) + 2 * n * G.tiny * (1 + G.u) ^ (n + 1) := by
    intro i j
    obtain ⟨r, e⟩ := accProd_fin G (seqOf fun k => A i k * B k j) n (by rw [sum_abs_seqOf]; exact h i j)
    have he := accProd_err G _ n r e
    rw [sum_seqOf, sum_abs_seqOf] at he
    refine ⟨r, ?_, he⟩
    rw [← e]
    refine accSum_congr fun k hk => ?_
    rw [ext_lt _ i.isLt hk, ext_lt _ hk j.isLt]
    simp only [seqOf, hk, dif_pos]
    rfl
  choose D eD hD using key
  refine ⟨Matrix.of D, ?_, hD⟩
  unfold matB
  rw [mtxMult_gen]
  congr 3
  ext i j
  exact eD i j

/-! ### Quaternions -/

/-- A quaternion of finite numbers. -/
def quatB (G : Format) (r i j k : ℝ) : Quat (BX G) := ⟨BX.of G r, BX.of G i, BX.of G j, BX.of G k⟩

theorem quatMagn_inf (G : Format) (r i j k : ℝ) (h : G.over ≤ r ^ 2 ∨ G.over ≤ i ^ 2 ∨ G.over ≤ j ^ 2 ∨ G.over ≤ k ^ 2) :
    quatMagn (quatB G r i j k) = ⟨XR.pinf⟩ := by
  have add : ∀ a b : BX G, (∃ x, 0 ≤ x ∧ a = BX.of G x) ∨ a = ⟨XR.pinf⟩ → (∃ x, 0 ≤ x ∧ b = BX.of G x) ∨ b = ⟨XR.pinf⟩ →
      ((∃ x, 0 ≤ x ∧ a + b = BX.of G x) ∨ a + b = ⟨XR.pinf⟩) ∧ (a = ⟨XR.pinf⟩ ∨ b = ⟨XR.pinf⟩ → a + b = ⟨XR.pinf⟩) := by
    rintro a b (⟨x, hx, rfl⟩ | rfl) (⟨y, hy, rfl⟩ | rfl)
    · constructor
      · rw [BX.of_add]
        rcases G.rnd_pos_cases (add_nonneg hx hy) with ⟨z, hz, e⟩ | e
        · exact Or.inl ⟨z, hz, by rw [e]; rfl⟩
        · exact Or.inr (by rw [e])
      · rintro (h | h)
        all_goals
          have := congrArg BX.val h
          simp at this
    · exact ⟨Or.inr rfl, fun _ => rfl⟩
    · exact ⟨Or.inr rfl, fun _ => rfl⟩
    · exact ⟨Or.inr rfl, fun _ => rfl⟩
  have sq : ∀ a : ℝ, ((∃ x, 0 ≤ x ∧ BX.of G a * BX.of G a = BX.of G x) ∨ BX.of G a * BX.of G a = ⟨XR.pinf⟩) ∧
      (G.over ≤ a ^ 2 → BX.of G a * BX.of G a = ⟨XR.pinf⟩) := by
    intro a
    rw [BX.of_mul]
    constructor
    · rcases G.rnd_pos_cases (mul_self_nonneg a) with ⟨z, hz, e⟩ | e
      · exact Or.inl ⟨z, hz, by rw [e]; rfl⟩
      · exact Or.inr (by rw [e])
    · intro h
      rw [G.pinf_of _ (by rwa [← pow_two])]
  have a1 := add _ _ (sq r).1 (sq i).1
  have a2 := add _ _ a1.1 (sq j).1
  have a3 := add _ _ a2.1 (sq k).1
  have key : BX.of G r * BX.of G r + BX.of G i * BX.of G i + BX.of G j * BX.of G j + BX.of G k * BX.of G k = ⟨XR.pinf⟩ := by
    rcases h with h | h | h | h
    · exact a3.2 (Or.inl (a2.2 (Or.inl (a1.2 (Or.inl ((sq r).2 h))))))
    · exact a3.2 (Or.inl (a2.2 (Or.inl (a1.2 (Or.inr ((sq i).2 h))))))
    · exact a3.2 (Or.inl (a2.2 (Or.inr ((sq j).2 h))))
    · exact a3.2 (Or.inr ((sq k).2 h))
  change CReal.sqrt (BX.of G r * BX.of G r + BX.of G i * BX.of G i + BX.of G j * BX.of G j + BX.of G k * BX.of G k) = _
  rw [key]
  rfl

/-- C141. The magnitude of a quaternion is infinite as soon as the square of one component overflows; normalising it then gives the zero quaternion instead of a unit quaternion,
and so does inverting it. -/
theorem quat_overflow (G : Format) (r i j k : ℝ) (h : G.over ≤ r ^ 2 ∨ G.over ≤ i ^ 2 ∨ G.over ≤ j ^ 2 ∨ G.over ≤ k ^ 2) :
    quatMagn (quatB G r i j k) = ⟨XR.pinf⟩ ∧ quatToUnit (quatB G r i j k) = quatB G 0 0 0 0 ∧ quatInv (quatB G r i j k) = quatB G 0 0 0 0 := by
  have hm := quatMagn_inf G r i j k h
  have hd : ∀ a : ℝ, BX.of G a / ⟨XR.pinf⟩ = BX.of G 0 := by
    intro a
    change BX.rd G (XR.fin 0) = _
    rw [BX.rd, G.rnd_zero]
    rfl
  have hd' : ∀ a : ℝ, BX.of G a / ⟨XR.ninf⟩ = BX.of G 0 := by
    intro a
    change BX.rd G (XR.fin 0) = _
    rw [BX.rd, G.rnd_zero]
    rfl
  have hlt : ∀ q : ℚ, ¬ CReal.lt (CReal.abs (⟨XR.pinf⟩ : BX G)) (lit q) = true := by
    intro q
    rw [BX.lit_eq]
    change ¬ XR.lt XR.pinf (G.rnd q) = true
    cases G.rnd q <;> simp [XR.lt]
  refine ⟨hm, ?_, ?_⟩
  · unfold quatToUnit
    simp only [hm]
    rw [if_neg (hlt _)]
    simp only [quatB, hd]
  · unfold quatInv
    simp only [hm]
    rw [if_neg (hlt _)]
    have e1 : (⟨XR.pinf⟩ : BX G) * ⟨XR.pinf⟩ = ⟨XR.pinf⟩ := rfl
    have e2 : -(⟨XR.pinf⟩ : BX G) = ⟨XR.ninf⟩ := rfl
    simp only [quatB, hd, e1, e2, hd']

/-- The magnitude of a quaternion is the norm of the vector of its components. -/
theorem quatMagn_norm (G : Format) (r i j k : ℝ) : vecNorm (vecB G ![r, i, j, k] []) = ok (quatMagn (quatB G r i j k)) := by
  have h : vecSumOfSqrs (vecB G ![r, i, j, k] []) =
      ok (BX.of G r * BX.of G r + BX.of G i * BX.of G i + BX.of G j * BX.of G j + BX.of G k * BX.of G k) := by
    rw [vecSumOfSqrs, vecDot_B, ok_bind]
    change ok (lit 0 + BX.of G r * BX.of G r + BX.of G i * BX.of G i + BX.of G j * BX.of G j + BX.of G k * BX.of G k) = _
    congr 4
    rw [G.lit_zero, BX.of_mul]
    rcases G.rnd_pos_cases (mul_self_nonneg r) with ⟨z, -, e⟩ | e
    · rw [e]
      change BX.of G 0 + BX.of G z = _
      rw [BX.of_add, zero_add, G.idem _ _ e]
    · rw [e]
      rfl
  exact vecNorm_of_sum _ _ h

/-- C141. In double precision, the magnitude of a quaternion between `2e-6` and `2 ^ 500` is finite with a relative error of at most `7 * 2 ^ -52`, and the components of the
normalised quaternion are wrong by at most `9 * 2 ^ -52`. Missing: larger quaternions, for which the claim is false (`quat_overflow`). -/
theorem quat_to_unit_double_partial (lib : Libm) (x : Fin 4 → ℝ) (hlo : 2e-6 ≤ Real.sqrt (∑ i, x i ^ 2))
    (hhi : Real.sqrt (∑ i, x i ^ 2) ≤ 2 ^ 500) :
    ∃ (m : ℝ) (y : Fin 4 → ℝ), quatMagn (quatB (double lib) (x 0) (x 1) (x 2) (x 3)) = BX.of (double lib) m ∧
      |m - Real.sqrt (∑ i, x i ^ 2)| ≤ 7 * (1 / 2) ^ 52 * Real.sqrt (∑ i, x i ^ 2) ∧
      quatToUnit (quatB (double lib) (x 0) (x 1) (x 2) (x 3)) = quatB (double lib) (y 0) (y 1) (y 2) (y 3) ∧
      ∀ i, |y i - x i / Real.sqrt (∑ i, x i ^ 2)| ≤ 9 * (1 / 2) ^ 52 := by
  have hxe : x = ![x 0, x 1, x 2, x 3] := by
    ext i
    fin_cases i <;> rfl
  have h400 : (1 / 2 : ℝ) ^ 400 ≤ Real.sqrt (∑ i, x i ^ 2) :=
    le_trans (le_trans (pow_le_pow_of_le_one (by norm_num) (by norm_num) (by norm_num : 20 ≤ 400)) (by norm_num : (1 / 2 : ℝ) ^ 20 ≤ 2e-6)) hlo
  obtain ⟨m, e, hm⟩ := vec_norm_double_partial lib x [] (by norm_num) h400 hhi
  have hx := vec_elem_le_norm x
  have em : quatMagn (quatB (double lib) (x 0) (x 1) (x 2) (x 3)) = BX.of (double lib) m := by
    have := quatMagn_norm (double lib) (x 0) (x 1) (x 2) (x 3)
    rw [← hxe, e] at this
    simpa using this.symm
  clear hhi h400
  generalize Real.sqrt (∑ i, x i ^ 2) = N at *
  norm_num at hm
  have hN : 0 < N := lt_of_lt_of_le (by norm_num) hlo
  have hm' := abs_le.1 hm
  have hm1 : (1 - 7 * (1 / 2) ^ 52) * N ≤ m := by linarith [hm'.1]
  have hmN : 15e-7 ≤ m := by nlinarith
  have hm0 : 0 < m := by linarith
  have hu := double_u lib
  have hη : (double lib).tiny ≤ (1 / 2) ^ 60 := by
    rw [double_tiny]
    exact pow_le_pow_of_le_one (by norm_num) (by norm_num) (by norm_num)
  have hη0 := (double lib).tiny_pos
  have htop : (2 : ℝ) ≤ (double lib).top :=
    le_trans (by simpa using pow_le_pow_right₀ (by norm_num : (1 : ℝ) ≤ 2) (by norm_num : 1 ≤ 1023)) (double_top lib)
  have hb : ∀ i, |x i / m| ≤ 1 + 8 * (1 / 2) ^ 52 := by
    intro i
    rw [abs_div, abs_of_pos hm0, div_le_iff₀ hm0]
    refine (hx i).trans ?_
    nlinarith
  have h2 : ∀ i, |x i / m - x i / N| ≤ 7 * (1 / 2) ^ 52 * (1 + 8 * (1 / 2) ^ 52) := by
    intro i
    rw [show x i / m - x i / N = -(x i / m * ((m - N) / N)) by field_simp; ring, abs_neg, abs_mul, abs_div _ N, abs_of_pos hN]
    have h3 : |m - N| / N ≤ 7 * (1 / 2) ^ 52 := by
      rw [div_le_iff₀ hN]
      linarith
    calc |x i / m| * (|m - N| / N) ≤ (1 + 8 * (1 / 2) ^ 52) * (7 * (1 / 2) ^ 52) := mul_le_mul (hb i) h3 (by positivity) (by positivity)
      _ = _ := by ring
  have hy := fun i => (double lib).in_range (x := x i / m) (by
    refine (hb i).trans (le_trans (by norm_num) htop))
  choose y ey _ hye using hy
  refine ⟨m, y, em, by linarith, ?_, fun i => ?_⟩
  · obtain ⟨c, hc, -, hce⟩ := (double lib).in_range (x := ((1e-6 : ℚ) : ℝ)) (le_trans (by norm_num) htop)
    have hcm : c < 15e-7 := by
      have := (abs_le.1 hce).2
      rw [hu] at this
      norm_num [abs_of_pos] at this hη ⊢
      linarith
    have hlt : ¬ CReal.lt (CReal.abs (BX.of (double lib) m)) (lit 1e-6) = true := by
      rw [BX.lit_eq, hc]
      change ¬ XR.lt (XR.fin |m|) (XR.fin c) = true
      simp only [XR.lt, decide_eq_true_eq, abs_of_pos hm0]
      linarith
    unfold quatToUnit
    simp only [em]
    rw [if_neg hlt]
    simp only [quatB, BX.of_div hm0.ne', ey]
    rfl
  · have h5 : |y i - x i / m| ≤ (1 / 2) ^ 53 * (1 + 8 * (1 / 2) ^ 52) + (1 / 2) ^ 60 := by
      refine (hye i).trans ?_
      rw [hu]
      exact add_le_add (mul_le_mul_of_nonneg_left (hb i) (by positivity)) hη
    have a := abs_le.1 (h2 i)
    have c := abs_le.1 h5
    rw [abs_le]
    norm_num at a c ⊢
    constructor <;> linarith [a.1, a.2, c.1, c.2]

/-- The quaternion `1 + i + j + k`. -/
example : (2e-6 : ℝ) ≤ Real.sqrt (∑ i, (![1, 1, 1, 1] : Fin 4 → ℝ) i ^ 2) ∧ Real.sqrt (∑ i, (![1, 1, 1, 1] : Fin 4 → ℝ) i ^ 2) ≤ 2 ^ 500 := by
  have h : Real.sqrt (∑ i, (![1, 1, 1, 1] : Fin 4 → ℝ) i ^ 2) = 2 := by
    rw [show ∑ i, (![1, 1, 1, 1] : Fin 4 → ℝ) i ^ 2 = 2 ^ 2 by simp [Fin.sum_univ_four]; norm_num, Real.sqrt_sq (by norm_num)]
  rw [h]
  exact ⟨by norm_num, by simpa using pow_le_pow_right₀ (by norm_num : (1 : ℝ) ≤ 2) (by norm_num : 1 ≤ 500)⟩

/-- A quaternion of size `2 ^ 600`. -/
example (lib : Libm) : quatToUnit (quatB (double lib) (2 ^ 600) 0 0 0) = quatB (double lib) 0 0 0 0 := by
  refine (quat_overflow (double lib) (2 ^ 600) 0 0 0 (Or.inl ?_)).2.1
  rw [double_over, ← pow_mul]
  exact pow_le_pow_right₀ (by norm_num) (by norm_num)

end Verif
