import Verif.Lemmas.LocusPair

/-!
# The black body locus between two rows of the table
-/

namespace Verif.LT

open EF Finset

theorem bb_pos {T n : ℝ} (hT : 0 < T) (hn : 0 < n) : 0 < bb T n := by
  unfold bb
  have : 0 < Real.exp (cA / (n * T)) - 1 := by
    rw [sub_pos, Real.one_lt_exp_iff]
    have : 0 < cA := by norm_num [cA]
    positivity
  positivity

theorem bb_log {T n : ℝ} (hT : 0 < T) (hn : 0 < n) : Real.log (bb T n) = -Real.log (n ^ 5) + -Real.log (Real.exp (cA / (n * T)) - 1) := by
  have : 0 < Real.exp (cA / (n * T)) - 1 := by
    rw [sub_pos, Real.one_lt_exp_iff]
    have : 0 < cA := by norm_num [cA]
    positivity
  rw [bb, one_div, Real.log_inv, Real.log_mul (by positivity) this.ne']
  ring

/-- Between two temperatures the black body is close to the geometric interpolation. -/
theorem bb_between {T0 T1 T t n : ℝ} (h0 : 0 < T0) (h1 : T0 ≤ T1) (ht0 : 0 ≤ t) (ht1 : t ≤ 1) (hT : 0 < T)
    (he : 1 / T = (1 - t) / T0 + t / T1) (hn : 0 < n) :
    Real.log (bb T n) ≤ (1 - t) * Real.log (bb T0 n) + t * Real.log (bb T1 n) ∧
      (1 - t) * Real.log (bb T0 n) + t * Real.log (bb T1 n) - (T1 / T0 - 1) ^ 2 / 8 ≤ Real.log (bb T n) := by
  have hc : 0 < cA := by norm_num [cA]
  have h1' : 0 < T1 := h0.trans_le h1
  have hx : cA / (n * T) = (1 - t) * (cA / (n * T0)) + t * (cA / (n * T1)) := by
    have : cA / (n * T) = cA / n * (1 / T) := by field_simp
    rw [this, he]
    field_simp
  have hle : cA / (n * T1) ≤ cA / (n * T0) := div_le_div_of_nonneg_left hc.le (by positivity) (mul_le_mul_of_nonneg_left h1 hn.le)
  have hr : cA / (n * T0) / (cA / (n * T1)) = T1 / T0 := by field_simp
  obtain ⟨a, b⟩ := LC.bose_chord (y := cA / (n * T1)) (x := cA / (n * T0)) (by positivity) hle ht0 ht1
  rw [← hx, hr] at b
  rw [← hx] at a
  rw [bb_log hT hn, bb_log h0 hn, bb_log h1' hn]
  constructor <;> linarith

/-- The weighted sum over the grid. -/
noncomputable def gl (c : ℕ → ℕ) (T : ℝ) : ℝ := ∑ k ∈ range 95, (c k : ℝ) * bb T ((360 + 5 * k : ℕ) : ℝ)

theorem grid_pos (k : ℕ) : (0 : ℝ) < ((360 + 5 * k : ℕ) : ℝ) := by
  have : 0 < 360 + 5 * k := by omega
  exact_mod_cast this

theorem dN_pos : ∀ k < 95, 0 < dN k := by decide +kernel
theorem xN_le : ∀ k < 95, 1000 * xN k ≤ 1403 * dN k := by decide +kernel
theorem yN_le : ∀ k < 95, 10 * yN k ≤ 4 * dN k := by decide +kernel

theorem glD_pos {T : ℝ} (hT : 0 < T) : 0 < gl dN T := by
  unfold gl
  refine sum_pos (fun k hk => mul_pos ?_ (bb_pos hT (grid_pos k))) (by simp)
  exact_mod_cast dN_pos k (mem_range.1 hk)

theorem gl_nonneg (c : ℕ → ℕ) {T : ℝ} (hT : 0 < T) : 0 ≤ gl c T :=
  sum_nonneg fun k _ => mul_nonneg (Nat.cast_nonneg _) (bb_pos hT (grid_pos k)).le

theorem pN_close {i : ℕ} {T : ℝ} (hT : T = ((tT.getD i 0 : ℕ) : ℝ) / 1000000) (h1 : 990 ≤ T) (h2 : T ≤ 20200) {k : ℕ} (hk : k < 95) :
    |(pN i k : ℝ) - scl T * bb T ((360 + 5 * k : ℕ) : ℝ)| ≤ 1e-10 * (scl T * bb T ((360 + 5 * k : ℕ) : ℝ)) := by
  rw [pN_def]
  exact val_close hT h1 h2 (by omega) (by omega)

theorem sN_close (c : ℕ → ℕ) {i : ℕ} {T : ℝ} (hT : T = ((tT.getD i 0 : ℕ) : ℝ) / 1000000) (h1 : 990 ≤ T) (h2 : T ≤ 20200) :
    |(sN c i : ℝ) - scl T * gl c T| ≤ 1e-10 * (scl T * gl c T) := by
  unfold sN gl
  push_cast
  have := sum_close (n := 95) (c := fun k => (c k : ℝ)) (P := fun k => (pN i k : ℝ)) (q := fun k => bb T ((360 + 5 * k : ℕ) : ℝ)) (S := scl T) (ε := 1e-10)
    (fun k _ => Nat.cast_nonneg _) (fun k hk => pN_close hT h1 h2 hk)
  push_cast at this
  exact this

/-- The weighted sum of the squared deviations in real numbers. -/
theorem acc_close {i : ℕ} {T0 T1 : ℝ} (hT0 : T0 = ((tT.getD i 0 : ℕ) : ℝ) / 1000000) (hT1 : T1 = ((tT.getD (i + 1) 0 : ℕ) : ℝ) / 1000000)
    (h1 : 990 ≤ T0) (h2 : T0 ≤ 20200) (h3 : 990 ≤ T1) (h4 : T1 ≤ 20200)
    (hdev : ∀ k < 95, dev (sN dN i) (sN dN (i + 1)) (pN i k) (pN (i + 1) k) ≤ 199999999) :
    (∀ k < 95, |bb T1 ((360 + 5 * k : ℕ) : ℝ) / gl dN T1 / (bb T0 ((360 + 5 * k : ℕ) : ℝ) / gl dN T0) - 1| ≤ 0.2) ∧
    ∑ k ∈ range 95, (dN k : ℝ) * (bb T0 ((360 + 5 * k : ℕ) : ℝ) / gl dN T0 *
      (bb T1 ((360 + 5 * k : ℕ) : ℝ) / gl dN T1 / (bb T0 ((360 + 5 * k : ℕ) : ℝ) / gl dN T0) - 1) ^ 2) ≤
      (accN i : ℝ) / sN dN i * 1e-18 * (1 + 3e-10) ∧ (0 : ℝ) < sN dN i := by
  have p0 : 0 < T0 := by linarith
  have p1 : 0 < T1 := by linarith
  have s0 := sN_close dN hT0 h1 h2
  have s1 := sN_close dN hT1 h3 h4
  have g0 := glD_pos p0
  have g1 := glD_pos p1
  have k0 := scl_pos T0
  have k1 := scl_pos T1
  have hD := abs_le.1 s0
  have D0 : (0 : ℝ) < sN dN i := by
    have : 0 < scl T0 * gl dN T0 := by positivity
    linarith [hD.1]
  have hd : ∀ k < 95, _ := fun k hk => dev_close k0 k1 g0 g1 (bb_pos p0 (grid_pos k)) (bb_pos p1 (grid_pos k)) s0 s1
    (pN_close hT0 h1 h2 hk) (pN_close hT1 h3 h4 hk) (hdev k hk)
  refine ⟨fun k hk => (hd k hk).trans ?_, ?_, D0⟩
  · have : ((dev (sN dN i) (sN dN (i + 1)) (pN i k) (pN (i + 1) k) : ℕ) : ℝ) ≤ 199999999 := by exact_mod_cast hdev k hk
    linarith
  · unfold accN
    push_cast
    rw [sum_div, sum_mul, sum_mul]
    refine sum_le_sum fun k hk => ?_
    have hk := mem_range.1 hk
    have hdk := hd k hk
    push_cast at hdk
    obtain ⟨b, hb⟩ : ∃ b : ℝ, (dev (sN dN i) (sN dN (i + 1)) (pN i k) (pN (i + 1) k) : ℝ) = b := ⟨_, rfl⟩
    have b0 : 0 ≤ b := by rw [← hb]; exact Nat.cast_nonneg _
    rw [hb] at hdk ⊢
    have hp := abs_le.1 (pN_close hT0 h1 h2 hk)
    push_cast at hp
    have q0 := bb_pos p0 (grid_pos k)
    push_cast at q0
    obtain ⟨ρ, hρ⟩ : ∃ ρ, bb T1 (360 + 5 * (k : ℝ)) / gl dN T1 / (bb T0 (360 + 5 * (k : ℝ)) / gl dN T0) - 1 = ρ := ⟨_, rfl⟩
    rw [hρ] at hdk ⊢
    have hsq : ρ ^ 2 ≤ (b * 1e-9) ^ 2 := sq_le_sq' (abs_le.1 hdk).1 (abs_le.1 hdk).2
    have key : bb T0 (360 + 5 * (k : ℝ)) / gl dN T0 ≤ pN i k / sN dN i * (1 + 3e-10) := by
      rw [div_mul_eq_mul_div, div_le_div_iff₀ g0 D0]
      have a1 : scl T0 * bb T0 (360 + 5 * (k : ℝ)) * (1 - 1e-10) ≤ pN i k := by linarith [hp.1]
      have a2 : (sN dN i : ℝ) ≤ scl T0 * gl dN T0 * (1 + 1e-10) := by linarith [hD.2]
      generalize bb T0 (360 + 5 * (k : ℝ)) = q at *
      generalize gl dN T0 = G at *
      generalize (pN i k : ℝ) = p at *
      generalize (sN dN i : ℝ) = s at *
      generalize scl T0 = S at *
      calc q * s ≤ q * (S * G * (1 + 1e-10)) := mul_le_mul_of_nonneg_left a2 q0.le
        _ = (S * q * (1 + 1e-10)) * G := by ring
        _ ≤ p * (1 + 3e-10) * G := by
          refine mul_le_mul_of_nonneg_right ?_ g0.le
          have h : S * q * (1 + 1e-10) ≤ S * q * ((1 - 1e-10) * (1 + 3e-10)) := mul_le_mul_of_nonneg_left (by norm_num) (by positivity)
          have h' := mul_le_mul_of_nonneg_right a1 (by norm_num : (0 : ℝ) ≤ 1 + 3e-10)
          linarith
    have d0 : (0 : ℝ) ≤ dN k := Nat.cast_nonneg _
    have := mul_le_mul key hsq (sq_nonneg _) (mul_nonneg (div_nonneg (Nat.cast_nonneg _) D0.le) (by norm_num))
    have := mul_le_mul_of_nonneg_left this d0
    refine this.trans (le_of_eq ?_)
    generalize (pN i k : ℝ) = p
    generalize (sN dN i : ℝ) = s
    generalize (dN k : ℝ) = d
    ring

/-- The colour between two rows is close to the interpolated colour of the rows. -/
theorem mix_row {T0 T1 T t σ B u0 u1 : ℝ} (c : ℕ → ℕ) (h0 : 0 < T0) (h1 : T0 ≤ T1) (h2 : T1 ≤ 1.01001 * T0) (ht0 : 0 ≤ t) (ht1 : t ≤ 1) (hT : 0 < T)
    (he : 1 / T = (1 - t) / T0 + t / T1) (hu0 : gl c T0 = u0 * gl dN T0) (hu1 : gl c T1 = u1 * gl dN T1)
    (hρ : ∀ k < 95, |bb T1 ((360 + 5 * k : ℕ) : ℝ) / gl dN T1 / (bb T0 ((360 + 5 * k : ℕ) : ℝ) / gl dN T0) - 1| ≤ 0.2)
    (hσ : ∑ k ∈ range 95, (dN k : ℝ) * (bb T0 ((360 + 5 * k : ℕ) : ℝ) / gl dN T0 *
      (bb T1 ((360 + 5 * k : ℕ) : ℝ) / gl dN T1 / (bb T0 ((360 + 5 * k : ℕ) : ℝ) / gl dN T0) - 1) ^ 2) ≤ σ)
    (hs : σ / 5 + 1.5031e-5 ≤ 0.01) (hB0 : 0 ≤ B) (hB : ∀ k < 95, |(c k : ℝ) - ((1 - t) * u0 + t * u1) * dN k| ≤ B * dN k) :
    |gl c T / gl dN T - ((1 - t) * u0 + t * u1)| ≤ 1.02 * B * (σ / 5 + 1.5031e-5) := by
  have p1 : 0 < T1 := h0.trans_le h1
  have g0 := glD_pos h0
  have g1 := glD_pos p1
  obtain ⟨Q, hQ⟩ : ∃ Q : ℝ, Real.exp (-((1 - t) * Real.log (gl dN T0) + t * Real.log (gl dN T1))) = Q := ⟨_, rfl⟩
  have Q0 : 0 < Q := by rw [← hQ]; exact Real.exp_pos _
  have hlQ : Real.log Q = -((1 - t) * Real.log (gl dN T0) + t * Real.log (gl dN T1)) := by rw [← hQ, Real.log_exp]
  let a : ℕ → ℝ := fun k => bb T0 ((360 + 5 * k : ℕ) : ℝ) / gl dN T0
  let ρ : ℕ → ℝ := fun k => bb T1 ((360 + 5 * k : ℕ) : ℝ) / gl dN T1 / a k
  let W : ℕ → ℝ := fun k => bb T ((360 + 5 * k : ℕ) : ℝ) * Q
  have a0 : ∀ k, 0 < a k := fun k => div_pos (bb_pos h0 (grid_pos k)) g0
  have b0 : ∀ k, 0 < bb T1 ((360 + 5 * k : ℕ) : ℝ) / gl dN T1 := fun k => div_pos (bb_pos p1 (grid_pos k)) g1
  have haρ : ∀ k, a k * ρ k = bb T1 ((360 + 5 * k : ℕ) : ℝ) / gl dN T1 := fun k => mul_div_cancel₀ _ (a0 k).ne'
  have sa : ∀ d : ℕ → ℕ, ∑ k ∈ range 95, (d k : ℝ) * a k = gl d T0 / gl dN T0 := fun d => by
    have : gl d T0 / gl dN T0 = (∑ k ∈ range 95, (d k : ℝ) * bb T0 ((360 + 5 * k : ℕ) : ℝ)) / gl dN T0 := rfl
    rw [this, sum_div]
    exact sum_congr rfl fun k _ => (mul_div_assoc _ _ _).symm
  have sb : ∀ d : ℕ → ℕ, ∑ k ∈ range 95, (d k : ℝ) * (a k * ρ k) = gl d T1 / gl dN T1 := fun d => by
    have : gl d T1 / gl dN T1 = (∑ k ∈ range 95, (d k : ℝ) * bb T1 ((360 + 5 * k : ℕ) : ℝ)) / gl dN T1 := rfl
    rw [this, sum_div]
    exact sum_congr rfl fun k _ => by rw [haρ, mul_div_assoc]
  have sW : ∀ d : ℕ → ℕ, ∑ k ∈ range 95, (d k : ℝ) * W k = gl d T * Q := fun d => by
    have : gl d T * Q = (∑ k ∈ range 95, (d k : ℝ) * bb T ((360 + 5 * k : ℕ) : ℝ)) * Q := rfl
    rw [this, sum_mul]
    exact sum_congr rfl fun k _ => (mul_assoc _ _ _).symm
  have hW : ∀ k < 95, W k ≤ a k * (1 + t * (ρ k - 1)) ∧
      a k * (1 + t * (ρ k - 1)) - a k * ((ρ k - 1) ^ 2 / 5 + 1.5031e-5) ≤ W k := fun k hk => by
    have hr := abs_le.1 (hρ k hk)
    have hr1 : 0.8 ≤ ρ k := by
      have : -0.2 ≤ ρ k - 1 := hr.1
      norm_num at this ⊢; linarith
    have hr2 : ρ k ≤ 1.2 := by
      have : ρ k - 1 ≤ 0.2 := hr.2
      norm_num at this ⊢; linarith
    have r0 : 0 < ρ k := div_pos (b0 k) (a0 k)
    obtain ⟨c1, c2, c3⟩ := LC.pow_chord hr1 hr2 ht0 ht1
    obtain ⟨m1, m2⟩ := bb_between h0 h1 ht0 ht1 hT he (grid_pos k)
    have la : Real.log (a k) = Real.log (bb T0 ((360 + 5 * k : ℕ) : ℝ)) - Real.log (gl dN T0) :=
      Real.log_div (bb_pos h0 (grid_pos k)).ne' g0.ne'
    have lr : Real.log (ρ k) = Real.log (bb T1 ((360 + 5 * k : ℕ) : ℝ)) - Real.log (gl dN T1) - Real.log (a k) := by
      have e1 : Real.log (ρ k) = Real.log (bb T1 ((360 + 5 * k : ℕ) : ℝ) / gl dN T1) - Real.log (a k) := Real.log_div (b0 k).ne' (a0 k).ne'
      rw [e1, Real.log_div (bb_pos p1 (grid_pos k)).ne' g1.ne']
    have W0 : 0 < W k := mul_pos (bb_pos hT (grid_pos k)) Q0
    have lW : Real.log (W k) = Real.log (bb T ((360 + 5 * k : ℕ) : ℝ)) - ((1 - t) * Real.log (gl dN T0) + t * Real.log (gl dN T1)) := by
      have e1 : Real.log (W k) = Real.log (bb T ((360 + 5 * k : ℕ) : ℝ)) + Real.log Q := Real.log_mul (bb_pos hT (grid_pos k)).ne' Q0.ne'
      rw [e1, hlQ]
      ring
    obtain ⟨g, hg⟩ : ∃ g, (T1 / T0 - 1) ^ 2 / 8 = g := ⟨_, rfl⟩
    rw [hg] at m2
    have hgle : g ≤ 1.25251e-5 := by
      rw [← hg]
      have q1 : T1 / T0 - 1 ≤ 0.01001 := by
        rw [sub_le_iff_le_add, div_le_iff₀ h0]
        norm_num at h2 ⊢
        linarith
      have q0 : 0 ≤ T1 / T0 - 1 := by
        rw [sub_nonneg, le_div_iff₀ h0]
        linarith
      have := pow_le_pow_left₀ q0 q1 2
      norm_num at this ⊢
      linarith
    have g0' : 0 ≤ g := by rw [← hg]; positivity
    have hWe : W k = Real.exp (Real.log (W k)) := (Real.exp_log W0).symm
    have hup : Real.log (W k) ≤ Real.log (a k) + t * Real.log (ρ k) := by rw [lW, lr, la]; linarith
    have hlo : Real.log (a k) + t * Real.log (ρ k) - g ≤ Real.log (W k) := by rw [lW, lr, la]; linarith
    have hEe : Real.exp (Real.log (a k) + t * Real.log (ρ k)) = a k * Real.exp (t * Real.log (ρ k)) := by rw [Real.exp_add, Real.exp_log (a0 k)]
    constructor
    · rw [hWe]
      refine (Real.exp_le_exp.2 hup).trans ?_
      rw [hEe]
      exact mul_le_mul_of_nonneg_left c1 (a0 k).le
    · rw [hWe]
      refine le_trans ?_ (Real.exp_le_exp.2 hlo)
      rw [sub_eq_add_neg _ g, Real.exp_add, hEe, mul_assoc]
      have eg : 1 - g ≤ Real.exp (-g) := by have := Real.add_one_le_exp (-g); linarith
      rw [← mul_sub]
      refine mul_le_mul_of_nonneg_left ?_ (a0 k).le
      obtain ⟨x, hx⟩ : ∃ x, Real.exp (t * Real.log (ρ k)) = x := ⟨_, rfl⟩
      rw [hx] at c2 c3 ⊢
      have x0 : 0 ≤ x := by rw [← hx]; exact (Real.exp_pos _).le
      have := mul_le_mul_of_nonneg_left eg x0
      have : x * g ≤ 1.2 * 1.25251e-5 := mul_le_mul c3 hgle g0' (by norm_num)
      norm_num at this ⊢
      nlinarith
  have main := LC.mix_close (n := 95) (a := a) (ρ := ρ) (W := W) (N := fun k => (c k : ℝ)) (D := fun k => (dN k : ℝ)) (t := t) (u0 := u0) (u1 := u1)
    (B := B) (σ := σ) (η := 1.5031e-5) (D0 := 1) (fun k _ => Nat.cast_nonneg _) one_pos
    (by rw [sa, div_self g0.ne']) (by rw [sb, div_self g1.ne'])
    (by rw [sa, hu0, mul_one]; exact mul_div_cancel_right₀ _ g0.ne') (by rw [sb, hu1, mul_one]; exact mul_div_cancel_right₀ _ g1.ne')
    hB hB0 hW (by rw [mul_one]; exact hσ) hs
  have := main.2
  rw [sW, sW, mul_div_mul_right _ _ Q0.ne'] at this
  exact this

end Verif.LT
