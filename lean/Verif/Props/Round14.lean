import Verif.Props.Round13

/-!
# The Madgwick filter in floating point (C163)
-/

set_option linter.unusedSectionVars false

namespace Verif

open Out Quaternion

variable {F : Rounding}

/-- A number: neither infinite nor a NaN. -/
def IsNum (x : FX F) : Prop := ∃ r : ℝ, x = FX.of F r

theorem IsNum.of (r : ℝ) : IsNum (FX.of F r) := ⟨r, rfl⟩
theorem IsNum.lit (q : ℚ) : IsNum (lit q : FX F) := ⟨_, FX.lit_eq q⟩
theorem IsNum.add {x y : FX F} : IsNum x → IsNum y → IsNum (x + y) := by rintro ⟨a, rfl⟩ ⟨b, rfl⟩; exact ⟨_, FX.of_add a b⟩
theorem IsNum.sub {x y : FX F} : IsNum x → IsNum y → IsNum (x - y) := by rintro ⟨a, rfl⟩ ⟨b, rfl⟩; exact ⟨_, FX.of_sub a b⟩
theorem IsNum.mul {x y : FX F} : IsNum x → IsNum y → IsNum (x * y) := by rintro ⟨a, rfl⟩ ⟨b, rfl⟩; exact ⟨_, FX.of_mul a b⟩

theorem nums12 {a b c d e f g h i j k l : FX F} (ha : IsNum a) (hb : IsNum b) (hc : IsNum c) (hd : IsNum d) (he : IsNum e) (hf : IsNum f) (hg : IsNum g)
    (hh : IsNum h) (hi : IsNum i) (hj : IsNum j) (hk : IsNum k) (hl : IsNum l) :
    ∃ J : Matrix (Fin 4) (Fin 3) ℝ, [a, b, c, d, e, f, g, h, i, j, k, l] = (matF F J []).data := by
  obtain ⟨a, rfl⟩ := ha
  obtain ⟨b, rfl⟩ := hb
  obtain ⟨c, rfl⟩ := hc
  obtain ⟨d, rfl⟩ := hd
  obtain ⟨e, rfl⟩ := he
  obtain ⟨f, rfl⟩ := hf
  obtain ⟨g, rfl⟩ := hg
  obtain ⟨h, rfl⟩ := hh
  obtain ⟨i, rfl⟩ := hi
  obtain ⟨j, rfl⟩ := hj
  obtain ⟨k, rfl⟩ := hk
  obtain ⟨l, rfl⟩ := hl
  exact ⟨!![a, b, c; d, e, f; g, h, i; j, k, l], by simp [matF, mtxOf, List.ofFn_succ, Fin.divNat, Fin.modNat]⟩

theorem madgJacG_F (q : ℍ[ℝ]) : ∃ J : Matrix (Fin 4) (Fin 3) ℝ, madgJacG (qF F q) = (matF F J []).data := by
  unfold madgJacG
  have L := fun x => IsNum.lit (F := F) x
  have r : IsNum (qF F q).r := ⟨_, rfl⟩
  have i : IsNum (qF F q).i := ⟨_, rfl⟩
  have j : IsNum (qF F q).j := ⟨_, rfl⟩
  have k : IsNum (qF F q).k := ⟨_, rfl⟩
  exact nums12 ((L _).mul j) ((L _).mul i) (L _) ((L _).mul k) ((L _).mul r) ((L _).mul i) ((L _).mul r) ((L _).mul k) ((L _).mul j) ((L _).mul i)
    ((L _).mul j) (L _)

theorem madgJacB_F (x z : ℝ) (q : ℍ[ℝ]) : ∃ J : Matrix (Fin 4) (Fin 3) ℝ, madgJacB (FX.of F x) (FX.of F z) (qF F q) = (matF F J []).data := by
  unfold madgJacB
  have L := fun x => IsNum.lit (F := F) x
  have r : IsNum (qF F q).r := ⟨_, rfl⟩
  have i : IsNum (qF F q).i := ⟨_, rfl⟩
  have j : IsNum (qF F q).j := ⟨_, rfl⟩
  have k : IsNum (qF F q).k := ⟨_, rfl⟩
  have X := IsNum.of (F := F) x
  have Z := IsNum.of (F := F) z
  exact nums12 (((L _).mul Z).mul j) ((((L _).mul X).mul k).add (((L _).mul Z).mul i)) (((L _).mul X).mul j) (((L _).mul Z).mul k)
    ((((L _).mul Z).mul j).add (((L _).mul Z).mul r)) ((((L _).mul X).mul k).sub (((L _).mul Z).mul i))
    ((((L _).mul X).mul j).sub (((L _).mul Z).mul r)) ((((L _).mul X).mul i).sub (((L _).mul Z).mul k))
    ((((L _).mul X).mul r).sub (((L _).mul Z).mul j)) ((((L _).mul X).mul k).add (((L _).mul Z).mul i))
    ((((L _).mul X).mul r).add (((L _).mul Z).mul j)) (((L _).mul X).mul i)

theorem vecF4 (w : Fin 4 → ℝ) : vecF F w [] = ⟨4, [FX.of F (w 0), FX.of F (w 1), FX.of F (w 2), FX.of F (w 3)]⟩ := by
  simp [vecF, vecOf, arrOf, List.ofFn_succ]

theorem madgGrad_F (junk : ℕ → FX F) (J : Matrix (Fin 4) (Fin 3) ℝ) (x : Matrix (Fin 3) (Fin 1) ℝ) :
    ∃ d : Fin 4 → ℝ, madgGrad junk (matF F J []).data (matF F x []) = ok ⟨4, 1, (vecF F d []).data⟩ := by
  unfold madgGrad
  obtain ⟨A, hA⟩ := uninit_eq junk 4 3
  obtain ⟨B, hB⟩ := uninit_eq junk 4 1
  rw [hA, hB, mtx_from_arr_correct _ _ _ (by rw [matF, mtxOf]; simp), ok_bind]
  dsimp only
  have : mtxOf (Matrix.of fun (i : Fin 4) (j : Fin 3) => (matF F J []).data[i.val * 3 + j.val]'(by
      rw [matF, mtxOf]; simp; omega)) [] = matF F J [] := by
    refine Eq.trans ?_ (show mtxOf (J.map (FX.of F)) [] = matF F J [] from rfl)
    congr 1
    ext i j
    fin_cases i <;> fin_cases j <;> rfl
  rw [this]
  obtain ⟨D, e, _⟩ := mtx_mult_rounding F J x B [] [] []
  refine ⟨fun i => D i 0, ?_⟩
  rw [e, ok_bind, vecF4]
  simp [matF, mtxOf, List.ofFn_succ, Fin.divNat, Fin.modNat]

theorem madgResidual_F (hu : F.u ≤ 1 / 64) (junk : ℕ → FX F) (q : ℍ[ℝ]) (hq : 2e-6 ≤ ‖q‖) (b : ℍ[ℝ]) (hb : b.re = 0) (a : V3) :
    ∃ x : Matrix (Fin 3) (Fin 1) ℝ, madgResidual junk (qF F q) (qF F b) (vecF F a []) = ok (matF F x []) := by
  obtain ⟨c, h⟩ := quatRot_num hu q hq b hb (quatJunk junk)
  obtain ⟨r0, r1, r2⟩ := vec3F_rd (F := F) a
  unfold madgResidual
  rw [h, r0, r1, r2]
  refine ⟨!![F.rnd (c.imI - a 0); F.rnd (c.imJ - a 1); F.rnd (c.imK - a 2)], ?_⟩
  simp [qF, quatF, matF, mtxOf, List.ofFn_succ, Fin.divNat, Fin.modNat]

/-- The unit vector of four numbers, or `(1, 0, 0, 0)`: never longer than 23/20. -/
theorem unit4_F (hu : F.u ≤ 1 / 64) (x : Fin 4 → ℝ) : ∃ y : Fin 4 → ℝ, vecToUnit (vecF F x []) = ok (0, vecF F y []) ∧ ∑ i, y i ^ 2 ≤ (23 / 20) ^ 2 := by
  by_cases hx : x = 0
  · subst hx
    refine ⟨![1, 0, 0, 0], ?_, by simp [Fin.sum_univ_four]; norm_num⟩
    obtain ⟨r, e, t, _, et⟩ := vecNorm_F F (0 : Fin 4 → ℝ) []
    simp at et
    subst et
    unfold vecToUnit
    rw [e, ok_bind, lit0_F, if_neg (by simp), vec_init_correct (vecF F (0 : Fin 4 → ℝ) []) (vecOf_wf _ _), ok_bind, vecF4]
    simp [vecF, vecOf, arrOf, wr, List.ofFn_succ, F.one, F.rnd_zero]
  · obtain ⟨y, e, _, t, ht, et⟩ := vec_to_unit_rounding F x hx []
    refine ⟨y, e, ?_⟩
    rw [et, one_mul]
    refine ht.2.trans ?_
    have h : (63 / 64 : ℝ) ^ 16 ≤ (1 - F.u) ^ 16 := pow_le_pow_left₀ (by norm_num) (by linarith) 16
    have : ((1 - F.u) ^ 16)⁻¹ ≤ ((63 / 64 : ℝ) ^ 16)⁻¹ := inv_anti₀ (by norm_num) h
    exact this.trans (by norm_num)

/-- The quaternion of four numbers. -/
def q4 (d : Fin 4 → ℝ) : ℍ[ℝ] := hq (d 0) (d 1) (d 2) (d 3)

theorem norm_q4 (d : Fin 4 → ℝ) : ‖q4 d‖ ^ 2 = ∑ i, d i ^ 2 := by
  rw [norm_sq_quat, Fin.sum_univ_four]
  rfl

theorem gam3_small (hu : F.u ≤ 1 / 64) : gam F.u 3 ≤ 1 / 20 := by
  have h : (63 / 64 : ℝ) ^ 3 ≤ (1 - F.u) ^ 3 := pow_le_pow_left₀ (by norm_num) (by linarith) 3
  unfold gam
  have : ((1 - F.u) ^ 3)⁻¹ ≤ ((63 / 64 : ℝ) ^ 3)⁻¹ := inv_anti₀ (by norm_num) h
  have h2 : ((63 / 64 : ℝ) ^ 3)⁻¹ ≤ 1 + 1 / 20 := by norm_num
  linarith

theorem norm_nine {c : ℍ[ℝ]} (hu : F.u ≤ 1 / 64) (h : Near F.u 12 (‖c‖ ^ 2) 1) : 9 / 10 ≤ ‖c‖ := by
  obtain ⟨t, ht, et⟩ := h
  have : (63 / 64 : ℝ) ^ 12 ≤ ‖c‖ ^ 2 := by
    rw [et, one_mul]
    exact (pow_le_pow_left₀ (by norm_num) (by linarith) 12).trans ht.1
  exact abs_le_of_sq_le_sq' ((le_trans (by norm_num) this)) (norm_nonneg _) |>.2

/-- The step with a gain of at most half the frequency: the attitude keeps away from zero, and gets length one up to twelve roundings of its square. -/
theorem madgUpdate_F (hu : F.u ≤ 1 / 64) {f : ℕ} (hf : 0 < f) (beta : ℝ) (h0 : 0 ≤ beta) (hb : beta ≤ f / 2) (g : V3) (d : Fin 4 → ℝ)
    (hd : ∑ i, d i ^ 2 ≤ (23 / 20) ^ 2) (q : ℍ[ℝ]) (hq : 2e-6 ≤ ‖q‖) :
    ∃ c : ℍ[ℝ], madgUpdate f (FX.of F beta) (vecF F g []) (vecF F d []) (qF F q) = ok (qF F c) ∧ Near F.u 12 (‖c‖ ^ 2) 1 := by
  obtain ⟨c, hc, hc1, _⟩ := quat_from_ang_vel_rounding F hu (pureQ g) q rfl hq _ (dt_F (F := F) hf).2 (qF F q)
  have hc9 := norm_nine hu hc1
  have hD : ‖q4 d‖ ≤ 23 / 20 := by
    rw [← norm_q4] at hd
    exact abs_le_of_sq_le_sq' hd (by norm_num) |>.2
  set δ := F.rnd (1 / F.rnd (f : ℝ)) with hδ
  have hδ0 : 0 ≤ δ := (dt_F (F := F) hf).2
  have hf0 : (0 : ℝ) < f := by exact_mod_cast hf
  have hδf : δ * beta ≤ 13 / 25 := by
    have hn : Near F.u 2 δ (1 / f) := (((Near.refl F (k := 0) 1).div F (F.near (f : ℝ))).rnd F)
    obtain ⟨t, ht, et⟩ := hn
    have h2 : t ≤ 26 / 25 := by
      refine ht.2.trans ?_
      have h : (63 / 64 : ℝ) ^ 2 ≤ (1 - F.u) ^ 2 := pow_le_pow_left₀ (by norm_num) (by linarith) 2
      have : ((1 - F.u) ^ 2)⁻¹ ≤ ((63 / 64 : ℝ) ^ 2)⁻¹ := inv_anti₀ (by norm_num) h
      exact this.trans (by norm_num)
    have ht0 : 0 ≤ t := (ht.pos F.u_nonneg F.u_lt).le
    rw [et]
    calc 1 / f * t * beta ≤ 1 / f * t * (f / 2) := mul_le_mul_of_nonneg_left hb (by positivity)
      _ = t / 2 := by field_simp
      _ ≤ 13 / 25 := by linarith
  have hδb : 0 ≤ δ * beta := mul_nonneg hδ0 h0
  have prod : ∀ x : ℝ, Err F.u 2 (F.rnd (δ * F.rnd (beta * x))) (δ * beta * x) (δ * beta * |x|) := by
    intro x
    have := (((Err.exact F δ).mul ((Err.exact F beta).mul (Err.exact F x)).rnd)).rnd
    rw [abs_of_nonneg hδ0, abs_of_nonneg h0] at this
    exact (this.mono (by omega)).congr (by ring) (by ring)
  have comp : ∀ y x : ℝ, Err F.u 3 (F.rnd (y - F.rnd (δ * F.rnd (beta * x)))) (y - δ * beta * x) (|y| + δ * beta * |x|) := fun y x =>
    (((Err.exact F y).mono (by omega)).sub (prod x)).rnd
  set s : ℍ[ℝ] := Verif.hq (F.rnd (c.re - F.rnd (δ * F.rnd (beta * d 0)))) (F.rnd (c.imI - F.rnd (δ * F.rnd (beta * d 1))))
    (F.rnd (c.imJ - F.rnd (δ * F.rnd (beta * d 2)))) (F.rnd (c.imK - F.rnd (δ * F.rnd (beta * d 3)))) with hs
  have herr : ErrQ F 3 s (c - (δ * beta) • q4 d) (qabs c + (δ * beta) • qabs (q4 d)) := by
    refine ⟨?_, ?_, ?_, ?_⟩
    · simpa [hs, q4, qabs] using comp c.re (d 0)
    · simpa [hs, q4, qabs] using comp c.imI (d 1)
    · simpa [hs, q4, qabs] using comp c.imJ (d 2)
    · simpa [hs, q4, qabs] using comp c.imK (d 3)
  have hs1 : 2e-6 ≤ ‖s‖ := by
    have h1 := herr.norm
    have h2 := norm_add_le (qabs c) ((δ * beta) • qabs (q4 d))
    rw [norm_smul, norm_qabs, norm_qabs, Real.norm_of_nonneg hδb] at h2
    have h3 := norm_sub_norm_le c ((δ * beta) • q4 d)
    rw [norm_smul, Real.norm_of_nonneg hδb] at h3
    have h4 : ‖c - (δ * beta) • q4 d‖ ≤ ‖s‖ + ‖s - (c - (δ * beta) • q4 d)‖ := by
      have := norm_sub_norm_le (c - (δ * beta) • q4 d) s
      rw [norm_sub_rev (c - (δ * beta) • q4 d) s] at this
      linarith
    have hg := gam3_small hu
    have hg0 := gam_nonneg F.u_nonneg F.u_lt 3
    have h5 : δ * beta * ‖q4 d‖ ≤ 13 / 25 * (23 / 20) := mul_le_mul hδf hD (norm_nonneg _) (by norm_num)
    have h6 : gam F.u 3 * ‖qabs c + (δ * beta) • qabs (q4 d)‖ ≤ 1 / 20 * (‖c‖ + 13 / 25 * (23 / 20)) :=
      mul_le_mul hg (by linarith) (norm_nonneg _) (by norm_num)
    norm_num at h5 h6 ⊢
    linarith
  obtain ⟨e, he, _, he1⟩ := quatToUnit_err (by linarith : F.u ≤ 1 / 16) s hs1
  refine ⟨e, ?_, he1⟩
  unfold madgUpdate
  rw [(dt_F hf).1, gyroF_eq]
  dsimp only
  rw [hc, ok_bind]
  dsimp only
  rw [vecF4]
  simp only [rd, List.getElem?_cons_zero, List.getElem?_cons_succ, ok_bind, FX.of_mul, pure_eq]
  rw [← he]
  congr 1

theorem grad0_F (junk : ℕ → FX F) : vecInit (Vec.uninit junk 4) = ok (0, vecF F (0 : Fin 4 → ℝ) []) := by
  have hun : Vec.uninit junk 4 = vecOf (fun i : Fin 4 => junk i) [] := by
    simp [Vec.uninit, vecOf, arrOf, List.ofFn_succ, List.range, List.range.loop]
  rw [hun, vec_init_correct _ (vecOf_wf _ _), vecF4]
  simp [vecOf, arrOf, List.ofFn_succ, F.rnd_zero]

theorem zero4 : ∑ i : Fin 4, (0 : Fin 4 → ℝ) i ^ 2 ≤ (23 / 20) ^ 2 := by simp; norm_num

theorem fusMadgwickImu_F (hu : F.u ≤ 1 / 64) (junk : ℕ → FX F) {f : ℕ} (hf : 0 < f) (beta : ℝ) (h0 : 0 ≤ beta) (hb : beta ≤ f / 2) (r : Reading)
    (m : Option (Vec (FX F))) (q : ℍ[ℝ]) (hq : 2e-6 ≤ ‖q‖) :
    ∃ (s : Sens (FX F)) (q' : ℍ[ℝ]), fusMadgwickImu junk f (FX.of F beta) ⟨r.a.map fun v => vecF F v [], m, vecF F r.g []⟩ (qF F q) =
      ok (0, s, qF F q') ∧ Near F.u 12 (‖q'‖ ^ 2) 1 := by
  unfold fusMadgwickImu
  rw [if_neg (by
    rintro (h | h)
    · exact badSize_F r.a h
    · simp [vecF, vecOf] at h), if_neg (quatIsZero_F hu q hq)]
  obtain ⟨u, eu, _, hu1⟩ := quatToUnit_err (by linarith : F.u ≤ 1 / 16) q hq
  have hu2 : 2e-6 ≤ ‖u‖ := by linarith [norm_half (by linarith : F.u ≤ 1 / 16) hu1]
  dsimp only
  rw [eu, grad0_F, ok_bind]
  dsimp only
  obtain ⟨c0, hc0, hn0⟩ := madgUpdate_F hu hf beta h0 hb r.g 0 zero4 u hu2
  cases ha : r.a with
  | none =>
    simp only [Option.map_none, sensValid, ok_bind]
    rw [if_neg (by simp), hc0, ok_bind]
    exact ⟨_, c0, rfl, hn0⟩
  | some a =>
    obtain ⟨b, hb', hv⟩ := sensValid_F (F := F) a
    simp only [Option.map_some]
    rw [hb', ok_bind]
    cases b with
    | false =>
      rw [if_neg (by simp), hc0, ok_bind]
      exact ⟨_, c0, rfl, hn0⟩
    | true =>
      obtain ⟨w, hw⟩ := unitP_F (F := F) a (hv rfl)
      obtain ⟨x, hx⟩ := madgResidual_F hu junk u hu2 (Verif.hq 0 0 0 1) rfl w
      obtain ⟨J, hJ⟩ := madgJacG_F (F := F) u
      obtain ⟨d, hd⟩ := madgGrad_F junk J x
      obtain ⟨y, hy, hy1⟩ := unit4_F hu d
      obtain ⟨c, hc, hn⟩ := madgUpdate_F hu hf beta h0 hb r.g y hy1 u hu2
      rw [if_pos rfl, hw, ok_bind, quatUp_F, hx, ok_bind, hJ, hd, ok_bind, vec_from_arr_correct (vecF F (0 : Fin 4 → ℝ) []) _ (vecOf_wf _ _) (by simp [vecF, vecOf, arrOf]), ok_bind]
      dsimp only
      rw [show (⟨(vecF F (0 : Fin 4 → ℝ) []).sz, (vecF F d []).data.take (vecF F (0 : Fin 4 → ℝ) []).sz ++
        (vecF F (0 : Fin 4 → ℝ) []).data.drop (vecF F (0 : Fin 4 → ℝ) []).sz⟩ : Vec (FX F)) = vecF F d [] by simp [vecF, vecOf, arrOf], hy, ok_bind]
      dsimp only
      rw [hc, ok_bind]
      exact ⟨_, c, rfl, hn⟩

theorem fusMadgwick_F (hu : F.u ≤ 1 / 64) (junk : ℕ → FX F) {f : ℕ} (hf : 0 < f) {incl : Option (FX F)} (hi : InclNum incl) (beta : ℝ) (h0 : 0 ≤ beta)
    (hb : beta ≤ f / 2) (r : Reading) (q : ℍ[ℝ]) (hq : 2e-6 ≤ ‖q‖) :
    ∃ (s : Sens (FX F)) (q' : ℍ[ℝ]), fusMadgwick junk f incl (FX.of F beta) (sensF F r) (qF F q) = ok (0, s, qF F q') ∧ Near F.u 12 (‖q'‖ ^ 2) 1 := by
  unfold fusMadgwick
  rw [if_neg (by
    rintro (h | h | h)
    · exact badSize_F r.a h
    · exact badSize_F r.m h
    · simp [sensF, vecF, vecOf] at h), if_neg (quatIsZero_F hu q hq)]
  have himu := fun m => fusMadgwickImu_F hu junk hf beta h0 hb r m q hq
  obtain ⟨u, eu, _, hu1⟩ := quatToUnit_err (by linarith : F.u ≤ 1 / 16) q hq
  have hu2 : 2e-6 ≤ ‖u‖ := by linarith [norm_half (by linarith : F.u ≤ 1 / 16) hu1]
  obtain ⟨c0, hc0, hn0⟩ := madgUpdate_F hu hf beta h0 hb r.g 0 zero4 u hu2
  cases hm : r.m with
  | none =>
    simp only [sensF, hm, Option.map_none, sensMissing, ok_bind]
    exact himu none
  | some m =>
    obtain ⟨b, hb', hv⟩ := sensMissing_F (F := F) m
    simp only [sensF, hm, Option.map_some]
    rw [hb', ok_bind]
    cases b with
    | true => exact himu _
    | false =>
      rw [if_neg (by simp), eu, grad0_F, ok_bind]
      dsimp only
      cases ha : r.a with
      | none =>
        simp only [Option.map_none, sensValid, ok_bind]
        rw [if_neg (by simp), hc0, ok_bind]
        exact ⟨_, c0, rfl, hn0⟩
      | some a =>
        obtain ⟨b, hb'', hva⟩ := sensValid_F (F := F) a
        simp only [Option.map_some]
        rw [hb'', ok_bind]
        cases b with
        | false =>
          rw [if_neg (by simp), hc0, ok_bind]
          exact ⟨_, c0, rfl, hn0⟩
        | true =>
          obtain ⟨w, hw⟩ := unitP_F (F := F) a (hva rfl)
          obtain ⟨v, hvm⟩ := unitP_F (F := F) m (hv rfl)
          obtain ⟨x, hx⟩ := madgResidual_F hu junk u hu2 (Verif.hq 0 0 0 1) rfl w
          obtain ⟨J, hJ⟩ := madgJacG_F (F := F) u
          obtain ⟨d, hd⟩ := madgGrad_F junk J x
          obtain ⟨bx, bz, hbf⟩ := fusEarthField_F hu junk hi u hu2 (pureQ v) rfl
          obtain ⟨x', hx'⟩ := madgResidual_F hu junk u hu2 (Verif.hq 0 bx 0 bz) rfl v
          have hx'' : madgResidual junk (qF F u) ⟨FX.of F 0, FX.of F bx, FX.of F 0, FX.of F bz⟩ (vecF F v []) = ok (matF F x' []) := hx'
          obtain ⟨J', hJ'⟩ := madgJacB_F (F := F) bx bz u
          obtain ⟨d', hd'⟩ := madgGrad_F junk J' x'
          obtain ⟨y, hy, hy1⟩ := unit4_F hu ![F.rnd (d 0 + d' 0), F.rnd (d 1 + d' 1), F.rnd (d 2 + d' 2), F.rnd (d 3 + d' 3)]
          obtain ⟨c, hc, hn⟩ := madgUpdate_F hu hf beta h0 hb r.g y hy1 u hu2
          rw [if_pos rfl, hw, ok_bind, hvm, ok_bind, quatUp_F, hx, ok_bind, hJ, hd, ok_bind, quatOfVec_F, ok_bind, hbf]
          dsimp only
          rw [lit0_F, hx'', ok_bind, hJ', hd', ok_bind]
          dsimp only
          rw [vecF4, vecF4, vecF4]
          rw [vecF4] at hy
          simp only [rd, wr, List.getElem?_cons_zero, List.getElem?_cons_succ, ok_bind, FX.of_add, List.length_cons, List.length_nil, Nat.reduceAdd,
            Nat.reduceLT, if_true, List.set_cons_zero, List.set_cons_succ]
          refine ⟨⟨some (vecF F w []), some (vecF F v []), vecF F r.g []⟩, c, ?_, hn⟩
          refine Eq.trans (congrArg (fun x => x >>= _) hy) ?_
          rw [ok_bind]
          dsimp only
          rw [hc, ok_bind]
          rfl

/-- C163. One feed of the Madgwick filter in floating point, with any readings (also missing ones and zeros) and a gain of at most half the frequency: it is
accepted, no number becomes infinite or a NaN, and the new attitude has length one (its square up to twelve roundings). -/
theorem madg_feed_rounding (hu : F.u ≤ 1 / 64) (junk : ℕ → FX F) {f : ℕ} (hf : 0 < f) {incl : Option (FX F)} (hi : InclNum incl) (r : Reading)
    (beta : ℝ) (h0 : 0 ≤ beta) (hb : beta ≤ f / 2) (q : ℍ[ℝ]) (hq : 2e-6 ≤ ‖q‖) :
    ∃ (s : Sens (FX F)) (q' : ℍ[ℝ]), fusMadgFeed junk f incl (FX.of F beta) (sensF F r) (qF F q) = ok (0, s, qF F q') ∧
      |‖q'‖ ^ 2 - 1| ≤ gam F.u 12 ∧ 2e-6 ≤ ‖q'‖ := by
  obtain ⟨s, q', e, h⟩ := fusMadgwick_F hu junk hf hi beta h0 hb r q hq
  refine ⟨s, q', ?_, by simpa using h.err F, by linarith [norm_half (by linarith : F.u ≤ 1 / 16) h]⟩
  unfold fusMadgFeed
  rw [lit0_F, if_neg (by simp [h0]), e]

/-- C163. Over every history of feeds of the Madgwick filter in floating point with a gain of at most half the frequency, however long, the attitude
stays a quaternion of numbers with length one (its square up to twelve roundings). -/
theorem madg_history_rounding (hu : F.u ≤ 1 / 64) (junk : ℕ → FX F) {f : ℕ} (hf : 0 < f) {incl : Option (FX F)} (hi : InclNum incl) (rs : List Reading)
    (beta : ℝ) (h0 : 0 ≤ beta) (hb : beta ≤ f / 2) (q : ℍ[ℝ]) (hq : 2e-6 ≤ ‖q‖) :
    ∃ q' : ℍ[ℝ], rs.foldlM (fun q r => fusMadgFeed junk f incl (FX.of F beta) (sensF F r) q >>= fun x => ok x.2.2) (qF F q) = ok (qF F q') ∧
      (rs ≠ [] → |‖q'‖ ^ 2 - 1| ≤ gam F.u 12) := by
  induction rs generalizing q with
  | nil => exact ⟨q, rfl, fun h => absurd rfl h⟩
  | cons r rs ih =>
    obtain ⟨s, q1, e, h1, h2⟩ := madg_feed_rounding hu junk hf hi r beta h0 hb q hq
    obtain ⟨q2, e2, h3⟩ := ih q1 h2
    by_cases hn : rs = []
    · subst hn
      refine ⟨q1, ?_, fun _ => h1⟩
      rw [List.foldlM_cons, e]
      rfl
    · refine ⟨q2, ?_, fun _ => h3 hn⟩
      rw [List.foldlM_cons, e]
      exact e2

/-- Non-vacuity: a common setting, 100 Hz with gain 0.1. -/
example : (0 : ℝ) ≤ 0.1 ∧ (0.1 : ℝ) ≤ (100 : ℕ) / 2 := by norm_num

end Verif
