import Verif.Lemmas.Round
import Verif.Spec.Ieee

/-!
# Sums in a format with overflow and underflow
-/

namespace Verif

open Out

variable {G : Format} {n : ℕ}

/-- A vector buffer of finite numbers. -/
def vecB (G : Format) (x : Fin n → ℝ) (t : List (BX G)) : Vec (BX G) := vecOf (fun i => BX.of G (x i)) t

/-- A matrix buffer of finite numbers. -/
def matB (G : Format) {p q : ℕ} (A : Matrix (Fin p) (Fin q) ℝ) (t : List (BX G)) : Mtx (BX G) := mtxOf (A.map (BX.of G)) t

theorem BX.val_inj {a b : BX G} (h : a.val = b.val) : a = b := by
  cases a
  cases b
  simpa using h

@[simp] theorem BX.of_val (r : ℝ) : (BX.of G r).val = XR.fin r := rfl

theorem BX.of_inj {a b : ℝ} (h : BX.of G a = BX.of G b) : a = b := by
  have := congrArg BX.val h
  simpa using this

theorem BX.add_val (a b : BX G) : (a + b).val = (BX.rd G (a.val + b.val)).val := rfl
theorem BX.mul_val (a b : BX G) : (a * b).val = (BX.rd G (a.val * b.val)).val := rfl
theorem BX.div_val (a b : BX G) : (a / b).val = (BX.rd G (a.val / b.val)).val := rfl

/-- A sum is finite only if both summands are. -/
theorem BX.add_fin {a b : BX G} {r : ℝ} (h : a + b = BX.of G r) : ∃ x y, a = BX.of G x ∧ b = BX.of G y ∧ G.rnd (x + y) = XR.fin r := by
  obtain ⟨a⟩ := a
  obtain ⟨b⟩ := b
  have h := congrArg BX.val h
  rw [BX.add_val] at h
  cases a <;> cases b <;> first
    | exact ⟨_, _, rfl, rfl, h⟩
    | (exfalso; change XR.pinf = _ at h; simp at h)
    | (exfalso; change XR.ninf = _ at h; simp at h)
    | (exfalso; change XR.nan = _ at h; simp at h)

theorem BX.pinf_add_of (r : ℝ) : (⟨XR.pinf⟩ : BX G) + BX.of G r = ⟨XR.pinf⟩ := rfl
theorem BX.of_add_pinf (r : ℝ) : BX.of G r + (⟨XR.pinf⟩ : BX G) = ⟨XR.pinf⟩ := rfl
theorem BX.pinf_add_pinf : (⟨XR.pinf⟩ : BX G) + ⟨XR.pinf⟩ = ⟨XR.pinf⟩ := rfl

/-! ### Sums of products -/

/-- One step of a sum of rounded products. -/
theorem step_err {u η E A a s t P q r : ℝ} (hu : 0 ≤ u) (hs : |s - P| ≤ E) (hP : |P| ≤ A) (ha : |q| = a) (ht : |t - q| ≤ u * a + η)
    (hr : |r - (s + t)| ≤ u * |s + t| + η) :
    |s + t| ≤ A + a + (E + (u * a + η)) ∧ |r - (P + q)| ≤ (1 + u) * (E + (u * a + η)) + u * (A + a) + η := by
  have h1 : |s + t| ≤ A + a + (E + (u * a + η)) := by
    rw [abs_le] at *
    have := abs_le.1 ha.le
    constructor <;> linarith [this.1, this.2, hs.1, hs.2, hP.1, hP.2, ht.1, ht.2]
  refine ⟨h1, ?_⟩
  have h2 : u * |s + t| ≤ u * (A + a + (E + (u * a + η))) := mul_le_mul_of_nonneg_left h1 hu
  rw [abs_le] at hs ht hr ⊢
  constructor <;> nlinarith [hs.1, hs.2, ht.1, ht.2, hr.1, hr.2]

/-- The factor of `k` roundings. -/
theorem one_le_grow (G : Format) (k : ℕ) : 1 ≤ (1 + G.u) ^ k := one_le_pow₀ (by linarith [G.u_nonneg])

theorem accProd_err (G : Format) (f : ℕ → ℝ) : ∀ (n : ℕ) (r : ℝ), accSum (fun k => (⟨G.rnd (f k)⟩ : BX G)) n = BX.of G r →
    |r - ∑ k ∈ Finset.range n, f k| ≤
      ((1 + G.u) ^ (n + 1) - 1) * (∑ k ∈ Finset.range n, |f k|) + 2 * n * G.tiny * (1 + G.u) ^ (n + 1)
  | 0, r, h => by
    rw [accSum, G.lit_zero] at h
    rw [← BX.of_inj h]
    simp
  | n + 1, r, h => by
    obtain ⟨s, t, e1, e2, e3⟩ := BX.add_fin (h : accSum _ n + _ = _)
    have ih := accProd_err G f n s e1
    have e2 : G.rnd (f n) = XR.fin t := congrArg BX.val e2
    have h0 := G.u_nonneg
    have hη := G.tiny_pos
    have hg := one_le_grow G (n + 1)
    have hg2 := one_le_grow G n
    have hA : 0 ≤ ∑ k ∈ Finset.range n, |f k| := Finset.sum_nonneg fun _ _ => abs_nonneg _
    obtain ⟨-, h2⟩ := step_err h0 ih (Finset.abs_sum_le_sum_abs _ _) rfl (G.err _ _ e2) (G.err _ _ e3)
    rw [Finset.sum_range_succ, Finset.sum_range_succ]
    refine h2.trans ?_
    generalize (∑ k ∈ Finset.range n, |f k|) = A at hA
    have ha := abs_nonneg (f n)
    generalize |f n| = a at ha
    rw [pow_succ (1 + G.u) (n + 1)]
    have hk : (1 + G.u) ^ (n + 1) ≥ 1 + G.u := by
      rw [pow_succ]
      nlinarith
    generalize (1 + G.u) ^ (n + 1) = g at *
    push_cast
    have p1 : 0 ≤ (g - (1 + G.u)) * (1 + G.u) * a := mul_nonneg (mul_nonneg (by linarith) (by linarith)) ha
    have p2 : 0 ≤ G.tiny * (2 * (g * (1 + G.u)) - (1 + G.u) - 1) := mul_nonneg hη.le (by nlinarith)
    nlinarith

theorem accProd_fin (G : Format) (f : ℕ → ℝ) : ∀ n : ℕ,
    (1 + G.u) ^ (n + 1) * ((∑ k ∈ Finset.range n, |f k|) + 2 * n * G.tiny) ≤ G.top →
    ∃ r, accSum (fun k => (⟨G.rnd (f k)⟩ : BX G)) n = BX.of G r
  | 0, _ => ⟨0, G.lit_zero⟩
  | n + 1, h => by
    have h0 := G.u_nonneg
    have hη := G.tiny_pos
    have hg := one_le_grow G (n + 1)
    have hA : 0 ≤ ∑ k ∈ Finset.range n, |f k| := Finset.sum_nonneg fun _ _ => abs_nonneg _
    have ha := abs_nonneg (f n)
    rw [Finset.sum_range_succ, pow_succ] at h
    push_cast at h
    have hm : (0 : ℝ) ≤ 2 * n * G.tiny := by positivity
    have hk : (1 + G.u) ^ (n + 1) ≥ 1 + G.u := by
      rw [pow_succ]
      nlinarith [one_le_grow G n]
    have hg0 : 0 ≤ (1 + G.u) ^ (n + 1) := by linarith
    have q1 : 0 ≤ (1 + G.u) ^ (n + 1) * G.u * ((∑ k ∈ Finset.range n, |f k|) + 2 * n * G.tiny) := by positivity
    have q2 : 0 ≤ (1 + G.u) ^ (n + 1) * (1 + G.u) * (|f n| + 2 * G.tiny) := by positivity
    have q3 : 0 ≤ (1 + G.u) ^ (n + 1) * (1 + G.u) * ((∑ k ∈ Finset.range n, |f k|) + 2 * n * G.tiny + 2 * G.tiny) := by positivity
    have q4 : 0 ≤ ((1 + G.u) ^ (n + 1) * (1 + G.u) - 1) * |f n| := mul_nonneg (by nlinarith) ha
    obtain ⟨s, e1⟩ := accProd_fin G f n (by nlinarith)
    have hs := accProd_err G f n s e1
    obtain ⟨t, e2, -, ht⟩ := G.in_range (x := f n) (by nlinarith)
    have h1 : |s + t| ≤ (∑ k ∈ Finset.range n, |f k|) + |f n| + (((1 + G.u) ^ (n + 1) - 1) * (∑ k ∈ Finset.range n, |f k|) +
        2 * n * G.tiny * (1 + G.u) ^ (n + 1) + (G.u * |f n| + G.tiny)) := by
      have hP : |∑ k ∈ Finset.range n, f k| ≤ ∑ k ∈ Finset.range n, |f k| := Finset.abs_sum_le_sum_abs _ _
      have hq := abs_le.1 (le_refl |f n|)
      rw [abs_le] at hs hP ht ⊢
      constructor <;> linarith [hs.1, hs.2, hP.1, hP.2, ht.1, ht.2, hq.1, hq.2]
    obtain ⟨r, e3, -⟩ := G.fin_of (s + t) (by
      refine h1.trans (le_trans ?_ h)
      generalize (∑ k ∈ Finset.range n, |f k|) = A at *
      generalize |f n| = a at *
      generalize (1 + G.u) ^ (n + 1) = g at *
      have p1 : 0 ≤ g * G.u * (A + 2 * n * G.tiny) := by positivity
      have p2 : 0 ≤ (g * (1 + G.u) - (1 + G.u)) * a := mul_nonneg (by nlinarith) ha
      have p3 : 0 ≤ (2 * (g * (1 + G.u)) - 1) * G.tiny := mul_nonneg (by nlinarith) hη.le
      nlinarith)
    refine ⟨r, ?_⟩
    change accSum _ n + (⟨G.rnd (f n)⟩ : BX G) = _
    rw [e1, e2]
    change BX.of G s + BX.of G t = _
    rw [BX.of_add, e3]
    rfl

/-- A sum of rounded numbers that are not negative is not negative, possibly infinite. -/
theorem accProd_pos (G : Format) (f : ℕ → ℝ) (hf : ∀ k, 0 ≤ f k) : ∀ n : ℕ,
    (∃ s, 0 ≤ s ∧ accSum (fun k => (⟨G.rnd (f k)⟩ : BX G)) n = BX.of G s) ∨ accSum (fun k => (⟨G.rnd (f k)⟩ : BX G)) n = ⟨XR.pinf⟩
  | 0 => Or.inl ⟨0, le_rfl, G.lit_zero⟩
  | n + 1 => by
    change (∃ s, 0 ≤ s ∧ accSum _ n + (⟨G.rnd (f n)⟩ : BX G) = _) ∨ accSum _ n + (⟨G.rnd (f n)⟩ : BX G) = _
    rcases accProd_pos G f hf n with ⟨s, hs, e⟩ | e <;> rcases G.rnd_pos_cases (hf n) with ⟨t, ht, e'⟩ | e'
    · rw [e, e']
      change (∃ s', 0 ≤ s' ∧ BX.of G s + BX.of G t = BX.of G s') ∨ BX.of G s + BX.of G t = _
      rw [BX.of_add]
      rcases G.rnd_pos_cases (add_nonneg hs ht) with ⟨r, hr, e''⟩ | e''
      · exact Or.inl ⟨r, hr, by rw [e'']; rfl⟩
      · exact Or.inr (by rw [e''])
    all_goals
      right
      rw [e, e']
      rfl

/-- One infinite summand makes such a sum infinite. -/
theorem accProd_inf (G : Format) (f : ℕ → ℝ) (hf : ∀ k, 0 ≤ f k) (n i : ℕ) (hi : i < n) (h : G.rnd (f i) = XR.pinf) :
    accSum (fun k => (⟨G.rnd (f k)⟩ : BX G)) n = ⟨XR.pinf⟩ := by
  induction n with
  | zero => omega
  | succ n ih =>
    change accSum _ n + (⟨G.rnd (f n)⟩ : BX G) = _
    rcases Nat.lt_succ_iff_lt_or_eq.1 hi with h' | rfl
    · rw [ih h']
      rcases G.rnd_pos_cases (hf n) with ⟨t, ht, e'⟩ | e' <;> rw [e'] <;> rfl
    · rw [h]
      rcases accProd_pos G f hf i with ⟨s, hs, e⟩ | e <;> rw [e] <;> rfl

theorem accProd_zero (G : Format) (f : ℕ → ℝ) (n : ℕ) (h : ∀ k < n, |f k| < G.tiny) :
    accSum (fun k => (⟨G.rnd (f k)⟩ : BX G)) n = BX.of G 0 := by
  induction n with
  | zero => exact G.lit_zero
  | succ n ih =>
    change accSum _ n + (⟨G.rnd (f n)⟩ : BX G) = _
    rw [ih fun k hk => h k (by omega), G.zero_of _ (h n (by omega))]
    change BX.of G 0 + BX.of G 0 = _
    rw [BX.of_add, add_zero, G.rnd_zero]
    rfl

/-! ### Plain sums -/

theorem accPlain_err (G : Format) (f : ℕ → ℝ) : ∀ (n : ℕ) (r : ℝ), accSum (fun k => BX.of G (f k)) n = BX.of G r →
    |r - ∑ k ∈ Finset.range n, f k| ≤ ((1 + G.u) ^ n - 1) * (∑ k ∈ Finset.range n, |f k|) + n * G.tiny * (1 + G.u) ^ n
  | 0, r, h => by
    rw [accSum, G.lit_zero] at h
    rw [← BX.of_inj h]
    simp
  | n + 1, r, h => by
    obtain ⟨s, t, e1, e2, e3⟩ := BX.add_fin (h : accSum _ n + _ = _)
    have ih := accPlain_err G f n s e1
    have e2 := BX.of_inj e2
    subst e2
    have h0 := G.u_nonneg
    have hη := G.tiny_pos
    have hg := one_le_grow G n
    have hA : 0 ≤ ∑ k ∈ Finset.range n, |f k| := Finset.sum_nonneg fun _ _ => abs_nonneg _
    have h3 := G.err _ _ e3
    have hP : |∑ k ∈ Finset.range n, f k| ≤ ∑ k ∈ Finset.range n, |f k| := Finset.abs_sum_le_sum_abs _ _
    rw [Finset.sum_range_succ, Finset.sum_range_succ]
    have ha := abs_nonneg (f n)
    have hq := abs_le.1 (le_refl |f n|)
    have h1 : |s + f n| ≤ (∑ k ∈ Finset.range n, |f k|) + |f n| +
        (((1 + G.u) ^ n - 1) * (∑ k ∈ Finset.range n, |f k|) + n * G.tiny * (1 + G.u) ^ n) := by
      rw [abs_le] at ih hP ⊢
      constructor <;> linarith [ih.1, ih.2, hP.1, hP.2, hq.1, hq.2]
    have h2 := mul_le_mul_of_nonneg_left h1 h0
    have h4 : |r - (∑ k ∈ Finset.range n, f k + f n)| ≤ (((1 + G.u) ^ n - 1) * (∑ k ∈ Finset.range n, |f k|) + n * G.tiny * (1 + G.u) ^ n) +
        G.u * |s + f n| + G.tiny := by
      rw [abs_le] at ih h3 ⊢
      constructor <;> linarith [ih.1, ih.2, h3.1, h3.2]
    refine h4.trans ?_
    rw [pow_succ]
    generalize (∑ k ∈ Finset.range n, |f k|) = A at *
    generalize |f n| = a at *
    generalize (1 + G.u) ^ n = g at *
    push_cast
    have p1 : 0 ≤ (g - 1) * (1 + G.u) * a := mul_nonneg (mul_nonneg (by linarith) (by linarith)) ha
    have p2 : 0 ≤ G.tiny * (g * (1 + G.u) - 1) := mul_nonneg hη.le (by nlinarith)
    nlinarith

theorem accPlain_fin (G : Format) (f : ℕ → ℝ) : ∀ n : ℕ,
    (1 + G.u) ^ n * ((∑ k ∈ Finset.range n, |f k|) + n * G.tiny) ≤ G.top → ∃ r, accSum (fun k => BX.of G (f k)) n = BX.of G r
  | 0, _ => ⟨0, G.lit_zero⟩
  | n + 1, h => by
    have h0 := G.u_nonneg
    have hη := G.tiny_pos
    have hg := one_le_grow G n
    have hA : 0 ≤ ∑ k ∈ Finset.range n, |f k| := Finset.sum_nonneg fun _ _ => abs_nonneg _
    have ha := abs_nonneg (f n)
    rw [Finset.sum_range_succ, pow_succ] at h
    push_cast at h
    have hm : (0 : ℝ) ≤ n * G.tiny := by positivity
    have hg0 : 0 ≤ (1 + G.u) ^ n := by linarith
    have q1 : 0 ≤ (1 + G.u) ^ n * G.u * ((∑ k ∈ Finset.range n, |f k|) + n * G.tiny) := by positivity
    have q2 : 0 ≤ (1 + G.u) ^ n * (1 + G.u) * (|f n| + G.tiny) := by positivity
    obtain ⟨s, e1⟩ := accPlain_fin G f n (by nlinarith)
    have ih := accPlain_err G f n s e1
    have hP : |∑ k ∈ Finset.range n, f k| ≤ ∑ k ∈ Finset.range n, |f k| := Finset.abs_sum_le_sum_abs _ _
    have hq := abs_le.1 (le_refl |f n|)
    have h1 : |s + f n| ≤ (∑ k ∈ Finset.range n, |f k|) + |f n| +
        (((1 + G.u) ^ n - 1) * (∑ k ∈ Finset.range n, |f k|) + n * G.tiny * (1 + G.u) ^ n) := by
      rw [abs_le] at ih hP ⊢
      constructor <;> linarith [ih.1, ih.2, hP.1, hP.2, hq.1, hq.2]
    obtain ⟨r, e3, -⟩ := G.fin_of (s + f n) (by
      refine h1.trans (le_trans ?_ h)
      generalize (∑ k ∈ Finset.range n, |f k|) = A at *
      generalize |f n| = a at *
      generalize (1 + G.u) ^ n = g at *
      have p2 : 0 ≤ (g * (1 + G.u) - 1) * a := mul_nonneg (by nlinarith) ha
      have p3 : 0 ≤ g * (1 + G.u) * G.tiny := by positivity
      nlinarith)
    refine ⟨r, ?_⟩
    change accSum _ n + _ = _
    rw [e1, BX.of_add, e3]
    rfl

theorem accPlain_pos (G : Format) (f : ℕ → ℝ) (hf : ∀ k, 0 ≤ f k) : ∀ n : ℕ,
    (∃ s, 0 ≤ s ∧ accSum (fun k => BX.of G (f k)) n = BX.of G s) ∨ accSum (fun k => BX.of G (f k)) n = ⟨XR.pinf⟩
  | 0 => Or.inl ⟨0, le_rfl, G.lit_zero⟩
  | n + 1 => by
    change (∃ s, 0 ≤ s ∧ accSum _ n + _ = _) ∨ accSum _ n + _ = _
    rcases accPlain_pos G f hf n with ⟨s, hs, e⟩ | e
    · rw [e, BX.of_add]
      rcases G.rnd_pos_cases (add_nonneg hs (hf n)) with ⟨r, hr, e''⟩ | e''
      · exact Or.inl ⟨r, hr, by rw [e'']; rfl⟩
      · exact Or.inr (by rw [e''])
    · right
      rw [e]
      rfl

/-! ### Vectors -/

/-- A dot product as a sum. -/
theorem vecDot_B (G : Format) (x y : Fin n → ℝ) (t s : List (BX G)) (d : BX G) :
    vecDot (vecB G x t) (vecB G y s) d = ok (0, accSum (fun k => (⟨G.rnd (seqOf (fun i => x i * y i) k)⟩ : BX G)) n) := by
  unfold vecDot
  rw [if_neg (by simp [vecB])]
  rw [show (vecB G x t).sz = n from rfl, forN_accSum (fun k => (⟨G.rnd (seqOf (fun i => x i * y i) k)⟩ : BX G))]
  · rfl
  · intro i hi a
    have h1 := vecOf_rd (fun i => BX.of G (x i)) t ⟨i, hi⟩
    have h2 := vecOf_rd (fun i => BX.of G (y i)) s ⟨i, hi⟩
    simp only at h1 h2
    unfold vecB
    rw [h1, ok_bind, h2, ok_bind, BX.of_mul]
    simp [seqOf, hi]

theorem sum_seqOf (x : Fin n → ℝ) : ∑ k ∈ Finset.range n, seqOf x k = ∑ i, x i := by
  rw [Finset.sum_range]
  simp [seqOf_fin]

theorem sum_abs_seqOf (x : Fin n → ℝ) : ∑ k ∈ Finset.range n, |seqOf x k| = ∑ i, |x i| := by
  rw [Finset.sum_range]
  simp [seqOf_fin]

theorem seqOf_nonneg (x : Fin n → ℝ) (h : ∀ i, 0 ≤ x i) (k : ℕ) : 0 ≤ seqOf x k := by
  unfold seqOf
  split_ifs
  · exact h _
  · exact le_rfl

end Verif
