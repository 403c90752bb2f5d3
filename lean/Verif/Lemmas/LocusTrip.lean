import Verif.Lemmas.LocusGeo
import Verif.Lemmas.LocusTab

/-!
# The black body locus and the table
-/

namespace Verif.LT

open EF Finset

theorem rows_fine : ∀ i < 302, 18380000 ≤ tU.getD (i + 1) 0 ∧ tU.getD (i + 1) 0 ≤ 44900000 ∧ 27000000 ≤ tV.getD (i + 1) 0 ∧ tV.getD (i + 1) 0 ≤ 36900000 ∧
    990000000 ≤ tT.getD (i + 1) 0 ∧ tT.getD (i + 1) 0 ≤ 20200000000 := by decide +kernel

theorem temps_fine : ∀ i < 301, tT.getD (i + 1) 0 ≤ tT.getD (i + 2) 0 ∧ 100000 * tT.getD (i + 2) 0 ≤ 101001 * tT.getD (i + 1) 0 := by decide +kernel

/-- What the check of the curvature says. -/
theorem flat_spec {acc D0 u0 v0 u1 v1 : ℕ} (hD : (0 : ℝ) < D0) (h : flat acc D0 u0 v0 u1 v1 = true) (hu : u1 ≤ u0) :
    ∃ E : ℝ, (acc : ℝ) / D0 * 1e-18 * (1 + 3e-10) / 5 + 1.5031e-5 ≤ E ∧ E ≤ 0.01 ∧
      (1.301 * E + 6e-8) ^ 2 ≤ 0.13 ^ 2 * ((((u1 : ℝ) - u0) / 100000000) ^ 2 + (((v1 : ℝ) - v0) / 100000000) ^ 2) := by
  unfold flat at h
  simp only [frc_eq, Bool.and_eq_true] at h
  obtain ⟨h1, h2⟩ := h
  have h1 := Nat.le_of_ble_eq_true h1
  have h2 := Nat.le_of_ble_eq_true h2
  have hDn : 0 < D0 := by exact_mod_cast hD
  obtain ⟨-, w1⟩ := div_close acc (1000000 * D0) (by positivity)
  obtain ⟨s, hs⟩ : ∃ s, acc / (1000000 * D0) = s := ⟨_, rfl⟩
  rw [hs] at h1 h2 w1
  obtain ⟨-, w2⟩ := div_close s 1000000000 (by norm_num)
  obtain ⟨f, hf⟩ : ∃ f, s / 1000000000 = f := ⟨_, rfl⟩
  rw [hf] at h1 h2 w2
  obtain ⟨-, w3⟩ := div_close (s + f + 2) 5 (by norm_num)
  obtain ⟨g, hg⟩ : ∃ g, (s + f + 2) / 5 = g := ⟨_, rfl⟩
  rw [hg] at h1 h2 w3
  obtain ⟨-, w4⟩ := div_close (1301 * (g + 15032000)) 1000 (by norm_num)
  obtain ⟨e, he⟩ : ∃ e, 1301 * (g + 15032000) / 1000 = e := ⟨_, rfl⟩
  rw [he] at h2 w4
  have h1' : ((g + 15032000 : ℕ) : ℝ) ≤ (10000000000 : ℕ) := by exact_mod_cast h1
  have h2' := (Nat.cast_le (α := ℝ)).2 h2
  rw [← pow_two, ← pow_two ((v0 - v1) + (v1 - v0)), ← pow_two (u0 - u1), Nat.cast_mul, Nat.cast_add ((u0 - u1) ^ 2), Nat.cast_pow, Nat.cast_pow, Nat.cast_pow,
    cast_diff, Nat.cast_sub hu] at h2'
  have f0 : (0 : ℝ) ≤ f := Nat.cast_nonneg f
  have e0 : (acc : ℝ) / D0 ≤ 1000000 * (s + 1) := by
    have : (acc : ℝ) / ((1000000 * D0 : ℕ) : ℝ) = (acc : ℝ) / D0 / 1000000 := by push_cast; field_simp
    rw [this, div_lt_iff₀ (by norm_num)] at w1
    linarith
  push_cast at w2 w3 w4 h1' h2'
  refine ⟨((g : ℝ) + 15032000) * 1e-12, ?_, ?_, ?_⟩
  · have := mul_le_mul_of_nonneg_right e0 (by norm_num : (0 : ℝ) ≤ 1e-18 * (1 + 3e-10))
    have w2' : (s : ℝ) * 1e-9 < f + 1 := by norm_num; linarith
    generalize (acc : ℝ) / D0 = A at *
    norm_num at *
    linarith
  · norm_num at *
    linarith
  · have g0 : (0 : ℝ) ≤ g := Nat.cast_nonneg g
    have k1 : (1301 * ((g : ℝ) + 15032000) / 1000 + 60000) ≤ e + 60001 := by linarith
    have k2 := pow_le_pow_left₀ (by positivity) k1 2
    have k3 := k2.trans h2'
    have e1 : (1.301 * (((g : ℝ) + 15032000) * 1e-12) + 6e-8) ^ 2 = (1301 * ((g : ℝ) + 15032000) / 1000 + 60000) ^ 2 * 1e-24 := by norm_num; ring
    have e2 : (0.13 : ℝ) ^ 2 * ((((u1 : ℝ) - u0) / 100000000) ^ 2 + (((v1 : ℝ) - v0) / 100000000) ^ 2) =
        1690000 * (((u0 : ℝ) - u1) ^ 2 + ((v0 : ℝ) - v1) ^ 2) * 1e-24 := by norm_num; ring
    rw [e1, e2]
    exact mul_le_mul_of_nonneg_right k3 (by norm_num)

theorem sum_sq_le {E : ℝ} (h : 0 ≤ E) : (1.2444 * E + 1.1e-8) ^ 2 + (0.3774 * E + 1.1e-8) ^ 2 ≤ (1.301 * E + 6e-8) ^ 2 := by
  have h2 : 0 ≤ E ^ 2 := sq_nonneg E
  norm_num at *
  ring_nf at *
  linarith

set_option maxHeartbeats 1000000 in
/-- Between two rows the colour of the black body is close to the segment that joins them. -/
theorem locus_chord {i : ℕ} (h1 : 1 ≤ i) (h2 : i ≤ 301) {t T : ℝ} (ht0 : 0 ≤ t) (ht1 : t ≤ 1) (hT : 0 < T)
    (he : 1 / T = (1 - t) / locusT i + t / locusT (i + 1)) :
    (gl xN T / gl dN T - ((1 - t) * locusU i + t * locusU (i + 1))) ^ 2 + (gl yN T / gl dN T - ((1 - t) * locusV i + t * locusV (i + 1))) ^ 2 ≤
      0.13 ^ 2 * gap2 i (i + 1) := by
  obtain ⟨j, rfl⟩ : ∃ j, i = j + 1 := ⟨i - 1, by omega⟩
  have hp := pair_spec (pairs j (by omega))
  obtain ⟨c1, c2, c3, c4, hdev, hflat⟩ := hp
  obtain ⟨r1, r2, r3, r4, r5, r6⟩ := rows_fine j (by omega)
  obtain ⟨q1, q2, q3, q4, q5, q6⟩ := rows_fine (j + 1) (by omega)
  obtain ⟨m1, m2⟩ := temps_fine j (by omega)
  have hcone := (cone_nat (j + 1) (by omega)).1
  rw [locusT_nat (by omega : j + 1 < 304), locusT_nat (by omega : j + 1 + 1 < 304)] at he
  have hg := gap2_nat (i := j + 1) (by omega)
  rw [gap2, locusU_nat (by omega : j + 1 < 304), locusU_nat (by omega : j + 1 + 1 < 304), locusV_nat (by omega : j + 1 < 304), locusV_nat (by omega : j + 1 + 1 < 304)]
  rw [show j + 2 = j + 1 + 1 from rfl] at m1 m2
  generalize j + 1 = i at *
  obtain ⟨T0, hT0⟩ : ∃ T0, ((tT.getD i 0 : ℕ) : ℝ) / 1000000 = T0 := ⟨_, rfl⟩
  obtain ⟨T1, hT1⟩ : ∃ T1, ((tT.getD (i + 1) 0 : ℕ) : ℝ) / 1000000 = T1 := ⟨_, rfl⟩
  have b1 : 990 ≤ T0 := by
    have : (990000000 : ℝ) ≤ ((tT.getD i 0 : ℕ) : ℝ) := by exact_mod_cast r5
    linarith
  have b2 : T0 ≤ 20200 := by
    have : ((tT.getD i 0 : ℕ) : ℝ) ≤ 20200000000 := by exact_mod_cast r6
    linarith
  have b3 : 990 ≤ T1 := by
    have : (990000000 : ℝ) ≤ ((tT.getD (i + 1) 0 : ℕ) : ℝ) := by exact_mod_cast q5
    linarith
  have b4 : T1 ≤ 20200 := by
    have : ((tT.getD (i + 1) 0 : ℕ) : ℝ) ≤ 20200000000 := by exact_mod_cast q6
    linarith
  have b5 : T0 ≤ T1 := by
    have : ((tT.getD i 0 : ℕ) : ℝ) ≤ ((tT.getD (i + 1) 0 : ℕ) : ℝ) := by exact_mod_cast m1
    linarith
  have b6 : T1 ≤ 1.01001 * T0 := by
    have : ((100000 * tT.getD (i + 1) 0 : ℕ) : ℝ) ≤ ((101001 * tT.getD i 0 : ℕ) : ℝ) := by exact_mod_cast m2
    simp only [Nat.cast_mul, Nat.cast_ofNat] at this
    rw [← hT0, ← hT1]
    generalize ((tT.getD i 0 : ℕ) : ℝ) = a at *
    generalize ((tT.getD (i + 1) 0 : ℕ) : ℝ) = b at *
    norm_num
    linarith
  rw [hT0, hT1] at he
  have p0 : 0 < T0 := by linarith
  have p1 : 0 < T1 := by linarith
  have g0 := glD_pos p0
  have g1 := glD_pos p1
  obtain ⟨a1, a2, a3⟩ := acc_close hT0.symm hT1.symm b1 b2 b3 b4 hdev
  obtain ⟨E, E1, E2, E3⟩ := flat_spec a3 hflat hcone.le
  have le8 : ∀ {n : ℕ}, n ≤ 44900000 → n ≤ 100000000 := fun h => h.trans (by norm_num)
  have u0c := coord_close (scl_pos T0) g0 (sN_close xN hT0.symm b1 b2) (sN_close dN hT0.symm b1 b2) (gl_nonneg xN p0) (le8 r2) c1
  have v0c := coord_close (scl_pos T0) g0 (sN_close yN hT0.symm b1 b2) (sN_close dN hT0.symm b1 b2) (gl_nonneg yN p0) (le8 (r4.trans (by norm_num))) c2
  have u1c := coord_close (scl_pos T1) g1 (sN_close xN hT1.symm b3 b4) (sN_close dN hT1.symm b3 b4) (gl_nonneg xN p1) (le8 q2) c3
  have v1c := coord_close (scl_pos T1) g1 (sN_close yN hT1.symm b3 b4) (sN_close dN hT1.symm b3 b4) (gl_nonneg yN p1) (le8 (q4.trans (by norm_num))) c4
  obtain ⟨u0, hu0⟩ : ∃ u0, gl xN T0 / gl dN T0 = u0 := ⟨_, rfl⟩
  obtain ⟨v0, hv0⟩ : ∃ v0, gl yN T0 / gl dN T0 = v0 := ⟨_, rfl⟩
  obtain ⟨u1, hu1⟩ : ∃ u1, gl xN T1 / gl dN T1 = u1 := ⟨_, rfl⟩
  obtain ⟨v1, hv1⟩ : ∃ v1, gl yN T1 / gl dN T1 = v1 := ⟨_, rfl⟩
  rw [hu0] at u0c
  rw [hv0] at v0c
  rw [hu1] at u1c
  rw [hv1] at v1c
  have R1 : (18380000 : ℝ) ≤ ((tU.getD i 0 : ℕ) : ℝ) := by exact_mod_cast r1
  have R2 : ((tU.getD i 0 : ℕ) : ℝ) ≤ 44900000 := by exact_mod_cast r2
  have R3 : (27000000 : ℝ) ≤ ((tV.getD i 0 : ℕ) : ℝ) := by exact_mod_cast r3
  have R4 : ((tV.getD i 0 : ℕ) : ℝ) ≤ 36900000 := by exact_mod_cast r4
  have Q1 : (18380000 : ℝ) ≤ ((tU.getD (i + 1) 0 : ℕ) : ℝ) := by exact_mod_cast q1
  have Q2 : ((tU.getD (i + 1) 0 : ℕ) : ℝ) ≤ 44900000 := by exact_mod_cast q2
  have Q3 : (27000000 : ℝ) ≤ ((tV.getD (i + 1) 0 : ℕ) : ℝ) := by exact_mod_cast q3
  have Q4 : ((tV.getD (i + 1) 0 : ℕ) : ℝ) ≤ 36900000 := by exact_mod_cast q4
  generalize ((tU.getD i 0 : ℕ) : ℝ) = U0 at *
  generalize ((tU.getD (i + 1) 0 : ℕ) : ℝ) = U1 at *
  generalize ((tV.getD i 0 : ℕ) : ℝ) = V0 at *
  generalize ((tV.getD (i + 1) 0 : ℕ) : ℝ) = V1 at *
  obtain ⟨σ, hσ⟩ : ∃ σ : ℝ, (accN i : ℝ) / sN dN i * 1e-18 * (1 + 3e-10) = σ := ⟨_, rfl⟩
  rw [hσ] at a2 E1
  have s0 : 0 ≤ 1 - t := by linarith
  have conv : ∀ {a b l r : ℝ}, l ≤ a → l ≤ b → a ≤ r → b ≤ r → l ≤ (1 - t) * a + t * b ∧ (1 - t) * a + t * b ≤ r := fun {a b l r} x1 x2 x3 x4 => by
    have := mul_le_mul_of_nonneg_left x1 s0
    have := mul_le_mul_of_nonneg_left x2 ht0
    have := mul_le_mul_of_nonneg_left x3 s0
    have := mul_le_mul_of_nonneg_left x4 ht0
    constructor <;> linarith
  have ub : 0.183 ≤ (1 - t) * u0 + t * u1 ∧ (1 - t) * u0 + t * u1 ≤ 0.45 := by
    rw [abs_le] at u0c u1c
    norm_num at u0c u1c ⊢
    exact conv (by linarith) (by linarith) (by linarith) (by linarith)
  have vb : 0.269 ≤ (1 - t) * v0 + t * v1 ∧ (1 - t) * v0 + t * v1 ≤ 0.3695 := by
    rw [abs_le] at v0c v1c
    norm_num at v0c v1c ⊢
    exact conv (by linarith) (by linarith) (by linarith) (by linarith)
  have hsm : σ / 5 + 1.5031e-5 ≤ 0.01 := E1.trans E2
  have mu := mix_row (B := 1.22) (u0 := u0) (u1 := u1) xN p0 b5 b6 ht0 ht1 hT he (by rw [← hu0]; field_simp) (by rw [← hu1]; field_simp) a1 a2 hsm (by norm_num) (fun k hk => by
    have d0 : (0 : ℝ) ≤ dN k := Nat.cast_nonneg _
    have x0 : (0 : ℝ) ≤ xN k := Nat.cast_nonneg _
    have := xN_le k hk
    have : ((1000 * xN k : ℕ) : ℝ) ≤ ((1403 * dN k : ℕ) : ℝ) := by exact_mod_cast this
    simp only [Nat.cast_mul, Nat.cast_ofNat] at this
    generalize (xN k : ℝ) = x at *
    generalize (dN k : ℝ) = d at *
    have y1 := mul_le_mul_of_nonneg_right ub.1 d0
    have y2 := mul_le_mul_of_nonneg_right ub.2 d0
    rw [abs_le]
    constructor <;> linarith)
  have mv := mix_row (B := 0.37) (u0 := v0) (u1 := v1) yN p0 b5 b6 ht0 ht1 hT he (by rw [← hv0]; field_simp) (by rw [← hv1]; field_simp) a1 a2 hsm (by norm_num) (fun k hk => by
    have d0 : (0 : ℝ) ≤ dN k := Nat.cast_nonneg _
    have x0 : (0 : ℝ) ≤ yN k := Nat.cast_nonneg _
    have := yN_le k hk
    have : ((10 * yN k : ℕ) : ℝ) ≤ ((4 * dN k : ℕ) : ℝ) := by exact_mod_cast this
    simp only [Nat.cast_mul, Nat.cast_ofNat] at this
    generalize (yN k : ℝ) = x at *
    generalize (dN k : ℝ) = d at *
    have y1 := mul_le_mul_of_nonneg_right vb.1 d0
    have y2 := mul_le_mul_of_nonneg_right vb.2 d0
    rw [abs_le]
    constructor <;> linarith)
  rw [sub_div, sub_div] at E3
  refine le_trans ?_ E3
  have E0 : 0 ≤ E := by
    have : 0 ≤ 1.02 * 1.22 * (σ / 5 + 1.5031e-5) := (abs_nonneg _).trans mu
    norm_num at this E1
    linarith
  have tri : ∀ {x a b A B r : ℝ}, |x - ((1 - t) * a + t * b)| ≤ r → |a - A| ≤ 1.1e-8 → |b - B| ≤ 1.1e-8 →
      |x - ((1 - t) * A + t * B)| ≤ r + 1.1e-8 := fun {x a b A B r} x1 x2 x3 => by
    rw [abs_le] at *
    have := mul_le_mul_of_nonneg_left x2.1 s0
    have := mul_le_mul_of_nonneg_left x2.2 s0
    have := mul_le_mul_of_nonneg_left x3.1 ht0
    have := mul_le_mul_of_nonneg_left x3.2 ht0
    constructor <;> linarith
  have mu' := tri mu u0c u1c
  have mv' := tri mv v0c v1c
  have fu : |gl xN T / gl dN T - ((1 - t) * (U0 / 100000000) + t * (U1 / 100000000))| ≤ 1.2444 * E + 1.1e-8 := by
    refine mu'.trans ?_
    norm_num at E1 ⊢
    linarith
  have fv : |gl yN T / gl dN T - ((1 - t) * (V0 / 100000000) + t * (V1 / 100000000))| ≤ 0.3774 * E + 1.1e-8 := by
    refine mv'.trans ?_
    norm_num at E1 ⊢
    linarith
  have su := sq_le_sq' (abs_le.1 fu).1 (abs_le.1 fu).2
  have sv := sq_le_sq' (abs_le.1 fv).1 (abs_le.1 fv).2
  exact (add_le_add su sv).trans (sum_sq_le E0)

end Verif.LT
