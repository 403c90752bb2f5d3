import Verif.Lemmas.Range
import Verif.Props.Vectors1

/-!
# Overflow and underflow in vector operations (C138, C139, C140)

`G` is any floating point format with a largest and a smallest number (`Base/BX.lean`): `G.u` is the unit roundoff, `G.tiny` half of the smallest positive
number, `G.top` the largest number, and numbers from `G.over` on are rounded to infinity. `double` and `single` (`Spec/Ieee.lean`) are such formats.
-/

namespace Verif

open Out

variable {G : Format} {n p q : ℕ}

/-- C138. If the computed dot product is finite, it is wrong by at most `(1 + u) ^ (n + 1) - 1` times the sum of the absolute products, plus an
absolute error from underflow. Neither the data nor the intermediate results are assumed to be in any range. -/
theorem vec_dot_finite_err (G : Format) (x y : Fin n → ℝ) (t s : List (BX G)) (d : BX G) (r : ℝ)
    (h : vecDot (vecB G x t) (vecB G y s) d = ok (0, BX.of G r)) :
    |r - ∑ i, x i * y i| ≤ ((1 + G.u) ^ (n + 1) - 1) * (∑ i, |x i * y i|) + 2 * n * G.tiny * (1 + G.u) ^ (n + 1) := by
  rw [vecDot_B] at h
  have h := accProd_err G _ n r (by simpa using h)
  rwa [sum_seqOf, sum_abs_seqOf] at h

/-- C138. If the sum of the absolute products stays below the largest number, the dot product does not overflow. -/
theorem vec_dot_in_range (G : Format) (x y : Fin n → ℝ) (t s : List (BX G)) (d : BX G)
    (h : (1 + G.u) ^ (n + 1) * ((∑ i, |x i * y i|) + 2 * n * G.tiny) ≤ G.top) :
    ∃ r : ℝ, vecDot (vecB G x t) (vecB G y s) d = ok (0, BX.of G r) ∧
      |r - ∑ i, x i * y i| ≤ ((1 + G.u) ^ (n + 1) - 1) * (∑ i, |x i * y i|) + 2 * n * G.tiny * (1 + G.u) ^ (n + 1) := by
  obtain ⟨r, e⟩ := accProd_fin G (seqOf fun i => x i * y i) n (by rwa [sum_abs_seqOf])
  have h1 : vecDot (vecB G x t) (vecB G y s) d = ok (0, BX.of G r) := by rw [vecDot_B, e]
  exact ⟨r, h1, vec_dot_finite_err G x y t s d r h1⟩

/-- C138. The sum of squares of finite numbers is a number that is not negative, or the positive infinity, never NaN; it is infinite as soon as one square
overflows, and zero if all squares underflow. -/
theorem vec_sum_of_sqrs_range (G : Format) (x : Fin n → ℝ) (t : List (BX G)) :
    ((∃ r, 0 ≤ r ∧ vecSumOfSqrs (vecB G x t) = ok (BX.of G r)) ∨ vecSumOfSqrs (vecB G x t) = ok ⟨XR.pinf⟩) ∧
    ((∃ i, G.over ≤ x i ^ 2) → vecSumOfSqrs (vecB G x t) = ok ⟨XR.pinf⟩) ∧
    ((∀ i, x i ^ 2 < G.tiny) → vecSumOfSqrs (vecB G x t) = ok (BX.of G 0)) := by
  have e : vecSumOfSqrs (vecB G x t) = ok (accSum (fun k => (⟨G.rnd (seqOf (fun i => x i * x i) k)⟩ : BX G)) n) := by
    rw [vecSumOfSqrs, vecDot_B]
    rfl
  have hp := seqOf_nonneg (fun i => x i * x i) fun i => mul_self_nonneg (x i)
  rw [e]
  refine ⟨?_, ?_, ?_⟩
  · rcases accProd_pos G _ hp n with ⟨s, hs, e⟩ | e
    · exact Or.inl ⟨s, hs, by rw [e]⟩
    · exact Or.inr (by rw [e])
  · rintro ⟨i, hi⟩
    rw [accProd_inf G _ hp n i i.isLt]
    rw [seqOf_fin]
    exact G.pinf_of _ (by rwa [← pow_two])
  · intro h
    rw [accProd_zero G _ n]
    intro k hk
    rw [seqOf, dif_pos hk, ← pow_two, abs_of_nonneg (sq_nonneg _)]
    exact h _

theorem vecNorm_of_sum (x : Vec (BX G)) (a : BX G) (h : vecSumOfSqrs x = ok a) : vecNorm x = ok (CReal.sqrt a) := by
  rw [vecNorm, h]
  rfl

/-- C139. The norm is infinite as soon as the square of one element overflows, even if the norm itself is far from the largest number. -/
theorem vec_norm_overflow (G : Format) (x : Fin n → ℝ) (t : List (BX G)) (h : ∃ i, G.over ≤ x i ^ 2) :
    vecNorm (vecB G x t) = ok ⟨XR.pinf⟩ :=
  vecNorm_of_sum _ _ ((vec_sum_of_sqrs_range G x t).2.1 h)

/-- C139. The norm is zero if the squares of all elements underflow, although the vector need not be zero. -/
theorem vec_norm_underflow (G : Format) (x : Fin n → ℝ) (t : List (BX G)) (h : ∀ i, x i ^ 2 < G.tiny) : vecNorm (vecB G x t) = ok (BX.of G 0) := by
  rw [vecNorm_of_sum _ _ ((vec_sum_of_sqrs_range G x t).2.2 h), BX.of_sqrt le_rfl, Real.sqrt_zero, G.rnd_zero]
  rfl

theorem vecScalarMult_B (G : Format) (x : Fin n → ℝ) (a : ℝ) (t : List (BX G)) :
    vecScalarMult (vecB G x t) (BX.of G a) = ok (0, vecOf (fun i => ⟨G.rnd (x i * a)⟩) t) := by
  unfold vecB
  rw [vec_scalar_mult_correct _ _ (vecOf_wf _ t), vecOf_sz, vecOf_drop, vecOf_vals, List.map_ofFn]
  rfl

/-- C139. `zsl_vec_to_unit` of a vector whose norm overflows reports success and returns the zero vector. -/
theorem vec_to_unit_overflow (G : Format) (x : Fin n → ℝ) (t : List (BX G)) (h : ∃ i, G.over ≤ x i ^ 2) :
    vecToUnit (vecB G x t) = ok (0, vecB G (0 : Fin n → ℝ) t) := by
  have hd : (lit 1 / ⟨XR.pinf⟩ : BX G) = BX.of G 0 := by
    rw [G.lit_one]
    change BX.rd G (XR.fin 0) = _
    rw [BX.rd, G.rnd_zero]
    rfl
  have hne : CReal.ne (⟨XR.pinf⟩ : BX G) (lit 0) = true := by
    rw [G.lit_zero]
    rfl
  rw [vecToUnit, vec_norm_overflow G x t h, ok_bind, if_pos hne, hd, vecScalarMult_B]
  simp only [mul_zero, G.rnd_zero]
  rfl

/-- C139. `zsl_vec_to_unit` of a vector all of whose squares underflow reports success and returns the first unit vector, whatever the direction of the vector. -/
theorem vec_to_unit_underflow (G : Format) (x : Fin (n + 1) → ℝ) (t : List (BX G)) (h : ∀ i, x i ^ 2 < G.tiny) :
    vecToUnit (vecB G x t) = ok (0, vecB G (Pi.single 0 1 : Fin (n + 1) → ℝ) t) := by
  have hne : ¬ CReal.ne (BX.of G 0) (lit 0) = true := by
    rw [G.lit_zero]
    change ¬ (!XR.beq (XR.fin 0) (XR.fin 0)) = true
    simp [XR.beq]
  have hl : vecB G (Pi.single 0 1 : Fin (n + 1) → ℝ) t =
      ⟨n + 1, (BX.of G 1 :: List.replicate n (BX.of G 0)) ++ t⟩ := by
    unfold vecB vecOf arrOf
    congr 2
    rw [List.ofFn_succ]
    congr 1
    apply List.ext_getElem
    · simp
    · intro i _ _
      simp
  rw [vecToUnit, vec_norm_underflow G x t h, ok_bind, if_neg hne, vec_init_correct (vecB G x t) (vecOf_wf _ t), hl]
  rw [ok_bind]
  change (do let d ← wr (List.replicate (n + 1) (lit 0) ++ List.drop (n + 1) (vecB G x t).data) 0 (lit 1)
             pure ((0 : Int), (⟨n + 1, d⟩ : Vec (BX G)))) = _
  have hd : List.drop (n + 1) (vecB G x t).data = t := vecOf_drop (fun i => BX.of G (x i)) t
  rw [hd, List.replicate_succ, wr, List.cons_append]
  simp only [List.length_cons, Nat.zero_lt_succ, if_true, List.set_cons_zero, G.lit_one, G.lit_zero]
  rfl

/-! ### Norms in range -/

/-- The square root of a number with relative and absolute errors. -/
theorem sqrt_err {N S c δ : ℝ} (hN : 0 ≤ N) (hS : 0 ≤ S) (hc : 0 ≤ c) (hδ : 0 ≤ δ) (h : |S - N ^ 2| ≤ c * N ^ 2 + δ) :
    |Real.sqrt S - N| ≤ c * N + Real.sqrt δ := by
  obtain ⟨s, hs, rfl⟩ : ∃ s, 0 ≤ s ∧ S = s ^ 2 := ⟨Real.sqrt S, Real.sqrt_nonneg _, (Real.sq_sqrt hS).symm⟩
  obtain ⟨d, hd, rfl⟩ : ∃ d, 0 ≤ d ∧ δ = d ^ 2 := ⟨Real.sqrt δ, Real.sqrt_nonneg _, (Real.sq_sqrt hδ).symm⟩
  rw [Real.sqrt_sq hs, Real.sqrt_sq hd]
  rw [abs_le] at h ⊢
  constructor
  · by_contra hlt
    push Not at hlt
    have : s < N - c * N - d := by linarith
    have h1 : 0 < N - c * N - d := lt_of_le_of_lt hs this
    nlinarith [h.1, mul_nonneg hc hN]
  · by_contra hlt
    push Not at hlt
    have h1 : N + (c * N + d) < s := by linarith
    nlinarith [h.2, mul_nonneg hc hN, mul_nonneg (mul_nonneg hc hN) hd, mul_nonneg hN hd, sq_nonneg (c * N)]

/-- C139. If the sum of squares stays below the largest number, the norm is finite and has a small relative error, plus an absolute error from underflow of the squares
(about the root of the smallest number). -/
theorem vec_norm_in_range_partial (G : Format) (x : Fin n → ℝ) (t : List (BX G)) (h : (1 + G.u) ^ (n + 1) * ((∑ i, x i ^ 2) + 2 * n * G.tiny) ≤ G.top) :
    ∃ r : ℝ, 0 ≤ r ∧ vecNorm (vecB G x t) = ok (BX.of G r) ∧
      |r - Real.sqrt (∑ i, x i ^ 2)| ≤ ((1 + G.u) ^ (n + 2) - 1) * Real.sqrt (∑ i, x i ^ 2) +
        (1 + G.u) * Real.sqrt (2 * n * G.tiny * (1 + G.u) ^ (n + 1)) + G.tiny := by
  have hu := G.u_nonneg
  have hη := G.tiny_pos
  have hg := one_le_grow G (n + 1)
  have e1 : ∀ i, |x i * x i| = x i ^ 2 := fun i => by rw [← pow_two, abs_of_nonneg (sq_nonneg _)]
  have e2 : ∀ i, x i * x i = x i ^ 2 := fun i => (pow_two _).symm
  obtain ⟨S, eS, hS⟩ := vec_dot_in_range G x x t t (lit 0) (by simpa only [e1] using h)
  simp only [e1] at hS
  simp only [e2] at hS
  have hs0 : 0 ≤ ∑ i, x i ^ 2 := Finset.sum_nonneg fun _ _ => sq_nonneg _
  have eS' : vecSumOfSqrs (vecB G x t) = ok (BX.of G S) := by rw [vecSumOfSqrs, eS]; rfl
  have hS0 : 0 ≤ S := by
    rcases (vec_sum_of_sqrs_range G x t).1 with ⟨r, hr, e⟩ | e
    · rw [e] at eS'
      have : BX.of G r = BX.of G S := by simpa using eS'
      rwa [← BX.of_inj this]
    · rw [e] at eS'
      have : (⟨XR.pinf⟩ : BX G) = BX.of G S := by simpa using eS'
      have := congrArg BX.val this
      simp at this
  have hN := Real.sqrt_nonneg (∑ i, x i ^ 2)
  have hq := Real.sq_sqrt hs0
  generalize hNe : Real.sqrt (∑ i, x i ^ 2) = N at *
  rw [← hq] at hS h
  have hδ : 0 ≤ 2 * n * G.tiny * (1 + G.u) ^ (n + 1) := by positivity
  have hr := sqrt_err hN hS0 (by linarith : 0 ≤ (1 + G.u) ^ (n + 1) - 1) hδ hS
  have hStop : S ≤ G.top := by
    have := (abs_le.1 hS).2
    linarith
  have hrtop : |Real.sqrt S| ≤ G.top := by
    rw [abs_of_nonneg (Real.sqrt_nonneg _), Real.sqrt_le_left (by linarith [G.one_le_top])]
    nlinarith [G.one_le_top]
  obtain ⟨r, er, -, hre⟩ := G.in_range hrtop
  rw [abs_of_nonneg (Real.sqrt_nonneg _)] at hre
  refine ⟨r, G.nonneg (Real.sqrt_nonneg _) er, ?_, ?_⟩
  · rw [vecNorm_of_sum _ _ eS', BX.of_sqrt hS0, er]
    rfl
  · rw [pow_succ (1 + G.u) (n + 1)]
    generalize Real.sqrt (2 * n * G.tiny * (1 + G.u) ^ (n + 1)) = d at *
    generalize (1 + G.u) ^ (n + 1) = g at *
    rw [abs_le] at hr hre ⊢
    have h1 : G.u * Real.sqrt S ≤ G.u * (N + ((g - 1) * N + d)) := mul_le_mul_of_nonneg_left (by linarith [hr.2]) hu
    constructor <;> linarith [hr.1, hr.2, hre.1, hre.2]

/-! ### Double precision -/

theorem grow_mul_le {u : ℝ} (hu : 0 ≤ u) (k : ℕ) : (1 + u) ^ k * (1 - k * u) ≤ 1 := by
  induction k with
  | zero => simp
  | succ k ih =>
    have hp : 0 ≤ (1 + u) ^ k := by positivity
    have hk : (0 : ℝ) ≤ (k + 1) * u ^ 2 := by positivity
    push_cast
    rw [pow_succ]
    nlinarith [mul_nonneg hp hk]

theorem grow_le {u : ℝ} (hu : 0 ≤ u) (k : ℕ) (h : k * u ≤ 1 / 2) : (1 + u) ^ k ≤ 1 + 2 * (k * u) := by
  have h1 := grow_mul_le hu k
  have h2 : (0 : ℝ) ≤ k * u := by positivity
  generalize (k : ℝ) * u = a at *
  generalize (1 + u) ^ k = g at *
  have h3 : g ≤ 1 / (1 - a) := by rw [le_div_iff₀ (by linarith)]; exact h1
  refine h3.trans ?_
  rw [div_le_iff₀ (by linarith)]
  nlinarith

theorem double_u (lib : Libm) : (double lib).u = (1 / 2) ^ 53 := rfl
theorem double_tiny (lib : Libm) : (double lib).tiny = (1 / 2) ^ 1075 := by
  change (2 : ℝ) ^ ((-1022 : ℤ) - ((52 : ℕ) : ℤ) - 1) = _
  rw [show ((-1022 : ℤ) - ((52 : ℕ) : ℤ) - 1) = -((1075 : ℕ) : ℤ) by norm_num, zpow_neg, zpow_natCast, one_div, inv_pow]
theorem double_top (lib : Libm) : (2 : ℝ) ^ 1023 ≤ (double lib).top := by
  have := (ieeeTop_bounds 52 1023).1
  rw [show (1023 : ℤ) = ((1023 : ℕ) : ℤ) by norm_num, zpow_natCast] at this
  exact this
theorem double_over (lib : Libm) : (double lib).over = 2 ^ 1024 := by
  change (2 : ℝ) ^ ((1023 : ℤ) + 1) = _
  rw [show (1023 : ℤ) + 1 = ((1024 : ℕ) : ℤ) by norm_num, zpow_natCast]

/-- C139. In double precision the norm of at most `2 ^ 20` numbers is finite with a relative error of at most `(n + 3) * 2 ^ -52` if it lies between
`2 ^ -400` and `2 ^ 500`. -/
theorem vec_norm_double_partial (lib : Libm) (x : Fin n → ℝ) (t : List (BX (double lib))) (hn : n ≤ 2 ^ 20)
    (hlo : (1 / 2) ^ 400 ≤ Real.sqrt (∑ i, x i ^ 2)) (hhi : Real.sqrt (∑ i, x i ^ 2) ≤ 2 ^ 500) :
    ∃ r : ℝ, vecNorm (vecB (double lib) x t) = ok (BX.of (double lib) r) ∧
      |r - Real.sqrt (∑ i, x i ^ 2)| ≤ (n + 3) * (1 / 2) ^ 52 * Real.sqrt (∑ i, x i ^ 2) := by
  have hs0 : 0 ≤ ∑ i, x i ^ 2 := Finset.sum_nonneg fun _ _ => sq_nonneg _
  have hq := Real.sq_sqrt hs0
  have hN := Real.sqrt_nonneg (∑ i, x i ^ 2)
  have hn' : (n : ℝ) ≤ 2 ^ 20 := by exact_mod_cast hn
  have hn0 : (0 : ℝ) ≤ n := by positivity
  have g1 : (1 + (double lib).u) ^ (n + 1) ≤ 2 := by
    have := grow_le (double lib).u_nonneg (n + 1) (by rw [double_u]; push_cast; nlinarith)
    rw [double_u] at this ⊢
    push_cast at this
    nlinarith
  have g2 : (1 + (double lib).u) ^ (n + 2) ≤ 1 + (n + 2) * (1 / 2) ^ 52 := by
    have := grow_le (double lib).u_nonneg (n + 2) (by rw [double_u]; push_cast; nlinarith)
    rw [double_u] at this ⊢
    push_cast at this
    refine this.trans (le_of_eq ?_)
    ring
  have hg := one_le_grow (double lib) (n + 1)
  obtain ⟨r, -, e, he⟩ := vec_norm_in_range_partial (double lib) x t (by
    refine le_trans ?_ (double_top lib)
    rw [← hq, double_tiny]
    have a1 : Real.sqrt (∑ i, x i ^ 2) ^ 2 ≤ 2 ^ 1000 := by
      calc _ ≤ ((2 : ℝ) ^ 500) ^ 2 := pow_le_pow_left₀ hN hhi 2
        _ = 2 ^ (500 * 2) := (pow_mul _ _ _).symm
    have a2 : (2 : ℝ) * n * (1 / 2) ^ 1075 ≤ 2 ^ 1000 := by
      have : (2 : ℝ) * n * (1 / 2) ^ 1075 ≤ 2 * 2 ^ 20 * 1 :=
        mul_le_mul (by linarith) (pow_le_one₀ (by norm_num) (by norm_num)) (by positivity) (by positivity)
      refine this.trans ?_
      calc (2 : ℝ) * 2 ^ 20 * 1 = 2 ^ 21 := by norm_num
        _ ≤ 2 ^ 1000 := pow_le_pow_right₀ (by norm_num) (by norm_num)
    calc _ ≤ (2 : ℝ) * (2 ^ 1000 + 2 ^ 1000) := mul_le_mul g1 (by linarith) (by positivity) (by norm_num)
      _ = 2 ^ 1000 * 2 ^ 2 := by generalize (2 : ℝ) ^ 1000 = a; ring
      _ = 2 ^ 1002 := by rw [← pow_add]
      _ ≤ 2 ^ 1023 := pow_le_pow_right₀ (by norm_num) (by norm_num))
  refine ⟨r, e, he.trans ?_⟩
  have b1 : Real.sqrt (2 * n * (double lib).tiny * (1 + (double lib).u) ^ (n + 1)) ≤ (1 / 2) ^ 520 := by
    rw [Real.sqrt_le_left (by positivity), double_tiny]
    have h1 : (2 : ℝ) * n * (1 / 2) ^ 1075 ≤ 2 * 2 ^ 20 * (1 / 2) ^ 1075 := mul_le_mul_of_nonneg_right (by linarith) (by positivity)
    have h2 : (2 : ℝ) * n * (1 / 2) ^ 1075 * (1 + (double lib).u) ^ (n + 1) ≤ 2 * 2 ^ 20 * (1 / 2) ^ 1075 * 2 :=
      mul_le_mul h1 g1 (by linarith) (by positivity)
    refine h2.trans ?_
    rw [← pow_mul]
    calc (2 : ℝ) * 2 ^ 20 * (1 / 2) ^ 1075 * 2 = 2 ^ 22 * ((1 / 2) ^ 22 * (1 / 2) ^ 1053) := by rw [← pow_add]; ring
      _ = (1 / 2) ^ 1053 := by rw [← mul_assoc, ← mul_pow]; norm_num
      _ ≤ (1 / 2) ^ (520 * 2) := pow_le_pow_of_le_one (by norm_num) (by norm_num) (by norm_num)
  have b2 : (1 + (double lib).u) ≤ 2 := by linarith [(double lib).u_lt]
  have b3 : (double lib).tiny ≤ (1 / 2) ^ 520 := by
    rw [double_tiny]
    exact pow_le_pow_of_le_one (by norm_num) (by norm_num) (by norm_num)
  have b4 : (1 + (double lib).u) * Real.sqrt (2 * n * (double lib).tiny * (1 + (double lib).u) ^ (n + 1)) ≤ 2 * (1 / 2) ^ 520 :=
    mul_le_mul b2 b1 (Real.sqrt_nonneg _) (by norm_num)
  have b5 : (3 : ℝ) * (1 / 2) ^ 520 ≤ (1 / 2) ^ 52 * (1 / 2) ^ 400 := by
    rw [← pow_add]
    calc (3 : ℝ) * (1 / 2) ^ 520 = 3 * (1 / 2) ^ 68 * (1 / 2) ^ 452 := by rw [mul_assoc, ← pow_add]
      _ ≤ 1 * (1 / 2) ^ 452 := mul_le_mul_of_nonneg_right (by norm_num) (by positivity)
      _ = _ := by rw [one_mul]
  have b6 : (1 / 2 : ℝ) ^ 52 * (1 / 2) ^ 400 ≤ (1 / 2) ^ 52 * Real.sqrt (∑ i, x i ^ 2) := mul_le_mul_of_nonneg_left hlo (by positivity)
  have b7 : ((1 + (double lib).u) ^ (n + 2) - 1) * Real.sqrt (∑ i, x i ^ 2) ≤ (n + 2) * (1 / 2) ^ 52 * Real.sqrt (∑ i, x i ^ 2) :=
    mul_le_mul_of_nonneg_right (by linarith) hN
  generalize (1 / 2 : ℝ) ^ 520 = a at *
  generalize (1 / 2 : ℝ) ^ 400 = b at *
  nlinarith

theorem vec_elem_le_norm (x : Fin n → ℝ) (i : Fin n) : |x i| ≤ Real.sqrt (∑ i, x i ^ 2) := by
  rw [← Real.sqrt_sq_eq_abs]
  exact Real.sqrt_le_sqrt (Finset.single_le_sum (f := fun i => x i ^ 2) (fun _ _ => sq_nonneg _) (Finset.mem_univ i))

/-- C139. In double precision `zsl_vec_to_unit` of at most `2 ^ 20` numbers whose norm lies between `2 ^ -400` and `2 ^ 500` succeeds and every element is
wrong by at most `(n + 6) * 2 ^ -52`. -/
theorem vec_to_unit_double_partial (lib : Libm) (x : Fin n → ℝ) (t : List (BX (double lib))) (hn : n ≤ 2 ^ 20)
    (hlo : (1 / 2) ^ 400 ≤ Real.sqrt (∑ i, x i ^ 2)) (hhi : Real.sqrt (∑ i, x i ^ 2) ≤ 2 ^ 500) :
    ∃ y : Fin n → ℝ, vecToUnit (vecB (double lib) x t) = ok (0, vecB (double lib) y t) ∧
      ∀ i, |y i - x i / Real.sqrt (∑ i, x i ^ 2)| ≤ (n + 6) * (1 / 2) ^ 52 := by
  obtain ⟨m, e, hm⟩ := vec_norm_double_partial lib x t hn hlo hhi
  have hx := vec_elem_le_norm x
  have hn' : (n : ℝ) ≤ 2 ^ 20 := by exact_mod_cast hn
  have hn0 : (0 : ℝ) ≤ n := by positivity
  generalize Real.sqrt (∑ i, x i ^ 2) = N at *
  have hN : 0 < N := lt_of_lt_of_le (by positivity) hlo
  have hε : (n + 3) * (1 / 2 : ℝ) ^ 52 ≤ (1 / 2) ^ 31 := by nlinarith
  have hε0 : 0 ≤ (n + 3) * (1 / 2 : ℝ) ^ 52 := by positivity
  have hm1 : N / 2 ≤ m := by
    have := (abs_le.1 hm).1
    nlinarith
  have hm0 : 0 < m := by linarith
  have hu := double_u lib
  have hη := double_tiny lib
  have htop := double_top lib
  have hinv : 1 / m ≤ 2 ^ 401 := by
    rw [div_le_iff₀ hm0]
    have h1 : (1 : ℝ) = 2 ^ 401 * ((1 / 2) ^ 400 / 2) := by
      rw [pow_succ, show (2 : ℝ) ^ 400 * 2 * ((1 / 2) ^ 400 / 2) = (2 * (1 / 2)) ^ 400 by rw [mul_pow]; ring]
      norm_num
    calc (1 : ℝ) = 2 ^ 401 * ((1 / 2) ^ 400 / 2) := h1
      _ ≤ 2 ^ 401 * m := mul_le_mul_of_nonneg_left ((div_le_div_of_nonneg_right hlo (by norm_num)).trans hm1) (by positivity)
  have hi0 : 0 < 1 / m := by positivity
  obtain ⟨q, eq, -, hq⟩ := (double lib).in_range (x := 1 / m) (by
    rw [abs_of_pos hi0]
    exact hinv.trans (le_trans (pow_le_pow_right₀ (by norm_num) (by norm_num)) htop))
  rw [abs_of_pos hi0] at hq
  have hηs : (double lib).tiny ≤ (1 / 2) ^ 575 * (1 / 2) ^ 500 := by
    rw [hη, ← pow_add]
  have hNη : N * (double lib).tiny ≤ (1 / 2) ^ 575 := by
    calc N * (double lib).tiny ≤ 2 ^ 500 * ((1 / 2) ^ 575 * (1 / 2) ^ 500) :=
        mul_le_mul hhi hηs (double lib).tiny_pos.le (by positivity)
      _ = (1 / 2) ^ 575 * (2 * (1 / 2)) ^ 500 := by rw [mul_pow]; ring
      _ = (1 / 2) ^ 575 := by norm_num
  have hη1 : (double lib).tiny ≤ (1 / 2) ^ 575 := by
    rw [hη]
    exact pow_le_pow_of_le_one (by norm_num) (by norm_num) (by norm_num)
  have hsm : (1 / 2 : ℝ) ^ 575 ≤ (1 / 2) ^ 60 := pow_le_pow_of_le_one (by norm_num) (by norm_num) (by norm_num)
  have hη0 := (double lib).tiny_pos
  have hNm : N * (1 / m) ≤ 1 + 2 * ((n + 3) * (1 / 2 : ℝ) ^ 52) := by
    rw [mul_one_div, div_le_iff₀ hm0]
    have := (abs_le.1 hm).1
    nlinarith
  have hηN : N * (double lib).tiny ≤ (1 / 2) ^ 60 := hNη.trans hsm
  have hη2 : (double lib).tiny ≤ (1 / 2) ^ 60 := hη1.trans hsm
  have hK : (n + 3) * (1 / 2 : ℝ) ^ 52 * (N * (1 / m)) ≤ (n + 3) * (1 / 2) ^ 52 + (1 / 2) ^ 60 := by
    have := mul_le_mul_of_nonneg_left hNm hε0
    nlinarith
  have hK2 : N * (1 / m) ≤ 1 + (1 / 2) ^ 30 := by
    refine hNm.trans ?_
    nlinarith
  clear hη hηs hNη hη1 hsm hinv
  have h1 : ∀ i, |x i * q - x i / m| ≤ (1 / 2) ^ 53 * (1 + (1 / 2) ^ 30) + (1 / 2) ^ 60 := by
    intro i
    rw [show x i * q - x i / m = x i * (q - 1 / m) by ring, abs_mul]
    calc |x i| * |q - 1 / m| ≤ N * ((double lib).u * (1 / m) + (double lib).tiny) := mul_le_mul (hx i) hq (abs_nonneg _) hN.le
      _ = (double lib).u * (N * (1 / m)) + N * (double lib).tiny := by ring
      _ ≤ _ := by
        rw [hu]
        exact add_le_add (mul_le_mul_of_nonneg_left hK2 (by positivity)) hηN
  have h2 : ∀ i, |x i / m - x i / N| ≤ (n + 3) * (1 / 2) ^ 52 + (1 / 2) ^ 60 := by
    intro i
    rw [show x i / m - x i / N = -(x i * (1 / N) * ((m - N) * (1 / m))) by field_simp; ring, abs_neg, abs_mul, abs_mul _ (1 / m), abs_of_pos hi0]
    have h3 : |x i * (1 / N)| ≤ 1 := by
      rw [mul_one_div, abs_div, abs_of_pos hN, div_le_one hN]
      exact hx i
    calc |x i * (1 / N)| * (|m - N| * (1 / m)) ≤ 1 * ((n + 3) * (1 / 2) ^ 52 * N * (1 / m)) :=
        mul_le_mul h3 (mul_le_mul_of_nonneg_right hm hi0.le) (by positivity) zero_le_one
      _ = (n + 3) * (1 / 2 : ℝ) ^ 52 * (N * (1 / m)) := by ring
      _ ≤ _ := hK
  have h4 : ∀ i, |x i / m| ≤ 1 + (1 / 2) ^ 30 := by
    intro i
    rw [abs_div, abs_of_pos hm0, div_eq_mul_one_div]
    exact (mul_le_mul_of_nonneg_right (hx i) hi0.le).trans hK2
  have hb : ∀ i, |x i * q| ≤ 3 / 2 := by
    intro i
    have a := abs_le.1 (h1 i)
    have b := abs_le.1 (h4 i)
    rw [abs_le]
    constructor <;> linarith [a.1, a.2, b.1, b.2]
  have hy := fun i => (double lib).in_range (x := x i * q) ((hb i).trans (le_trans (le_trans (by norm_num) (pow_le_pow_right₀ (by norm_num) (by norm_num) : (2 : ℝ) ^ 1 ≤ 2 ^ 1023)) htop))
  choose y ey _ hye using hy
  clear htop hlo hhi
  refine ⟨y, ?_, fun i => ?_⟩
  · rw [vecToUnit, e, ok_bind, if_pos, (double lib).lit_one, BX.of_div hm0.ne', eq]
    · rw [show (⟨XR.fin q⟩ : BX (double lib)) = BX.of (double lib) q from rfl, vecScalarMult_B]
      simp only [ey]
      rfl
    · rw [(double lib).lit_zero]
      change (!XR.beq (XR.fin m) (XR.fin 0)) = true
      simp [XR.beq, hm0.ne']
  · have h5 : |y i - x i * q| ≤ (1 / 2) ^ 53 * (3 / 2) + (1 / 2) ^ 60 := by
      refine (hye i).trans ?_
      rw [hu]
      exact add_le_add (mul_le_mul_of_nonneg_left (hb i) (by positivity)) hη2
    have a := abs_le.1 (h1 i)
    have b := abs_le.1 (h2 i)
    have c := abs_le.1 h5
    rw [abs_le]
    constructor <;> linarith [a.1, a.2, b.1, b.2, c.1, c.2]

/-! ### Cases that meet the hypotheses -/

/-- Two numbers of size `2 ^ 600`: the norm overflows in double precision, although it is smaller than `2 ^ 601`, and the unit vector is zero. -/
example (lib : Libm) : vecNorm (vecB (double lib) ![2 ^ 600, 2 ^ 600] []) = ok ⟨XR.pinf⟩ ∧
    vecToUnit (vecB (double lib) ![2 ^ 600, 2 ^ 600] []) = ok (0, vecB (double lib) (0 : Fin 2 → ℝ) []) ∧
    Real.sqrt (∑ i, (![2 ^ 600, 2 ^ 600] : Fin 2 → ℝ) i ^ 2) ≤ 2 ^ 601 := by
  have h : ∃ i, (double lib).over ≤ (![2 ^ 600, 2 ^ 600] : Fin 2 → ℝ) i ^ 2 := by
    refine ⟨0, ?_⟩
    rw [double_over]
    change (2 : ℝ) ^ 1024 ≤ (2 ^ 600) ^ 2
    rw [← pow_mul]
    exact pow_le_pow_right₀ (by norm_num) (by norm_num)
  refine ⟨vec_norm_overflow _ _ _ h, vec_to_unit_overflow _ _ _ h, ?_⟩
  rw [Real.sqrt_le_left (by positivity), Fin.sum_univ_two]
  change ((2 : ℝ) ^ 600) ^ 2 + (2 ^ 600) ^ 2 ≤ (2 ^ 601) ^ 2
  rw [show (2 : ℝ) ^ 601 = 2 ^ 600 * 2 from pow_succ _ _]
  generalize (2 : ℝ) ^ 600 = a
  nlinarith [sq_nonneg a]

/-- A vector in the direction of the second axis of size `2 ^ -600`: the computed direction is that of the first axis. -/
example (lib : Libm) : vecToUnit (vecB (double lib) ![0, (1 / 2) ^ 600] []) = ok (0, vecB (double lib) (Pi.single 0 1 : Fin 2 → ℝ) []) := by
  refine vec_to_unit_underflow (double lib) ![0, (1 / 2) ^ 600] [] ?_
  intro i
  rw [double_tiny]
  fin_cases i
  · change (0 : ℝ) ^ 2 < (1 / 2) ^ 1075
    rw [zero_pow two_ne_zero]
    positivity
  · change ((1 / 2 : ℝ) ^ 600) ^ 2 < (1 / 2) ^ 1075
    rw [← pow_mul]
    exact pow_lt_pow_right_of_lt_one₀ (by norm_num) (by norm_num) (by norm_num)

/-- Three and four in double precision. -/
example (lib : Libm) : ∃ r : ℝ, vecNorm (vecB (double lib) ![3, 4] []) = ok (BX.of (double lib) r) ∧ |r - 5| ≤ 25 * (1 / 2) ^ 52 := by
  have h5 : Real.sqrt (∑ i, (![3, 4] : Fin 2 → ℝ) i ^ 2) = 5 := by
    rw [Fin.sum_univ_two]
    change Real.sqrt (3 ^ 2 + 4 ^ 2) = 5
    rw [show (3 : ℝ) ^ 2 + 4 ^ 2 = 5 ^ 2 by norm_num, Real.sqrt_sq (by norm_num)]
  obtain ⟨r, e, h⟩ := vec_norm_double_partial lib ![3, 4] [] (by norm_num)
    (by rw [h5]; exact (pow_le_one₀ (by norm_num) (by norm_num)).trans (by norm_num))
    (by rw [h5]; exact le_trans (by norm_num : (5 : ℝ) ≤ 2 ^ 3) (pow_le_pow_right₀ (by norm_num) (by norm_num)))
  rw [h5] at h
  refine ⟨r, e, h.trans (le_of_eq ?_)⟩
  push_cast
  ring

end Verif
