import Verif.Props.Round12
import Verif.Spec.Fusion
import Verif.Lemmas.Fusion

/-!
# The Mahony and Madgwick filters in floating point (C163)
-/

set_option linter.unusedSectionVars false

namespace Verif

open Out Quaternion

variable {F : Rounding}

/-- The arguments of a feed with this reading, in floating point. -/
def sensF (F : Rounding) (r : Reading) : Sens (FX F) :=
  ⟨r.a.map fun v => vecF F v [], r.m.map fun v => vecF F v [], vecF F r.g []⟩

theorem vecF3 (w : V3) : vecF F w [] = ⟨3, [FX.of F (w 0), FX.of F (w 1), FX.of F (w 2)]⟩ := by
  simp [vecF, vecOf, arrOf, List.ofFn_succ]

theorem mk3F (a b c : ℝ) : (⟨3, [FX.of F a, FX.of F b, FX.of F c]⟩ : Vec (FX F)) = vecF F ![a, b, c] [] := by
  rw [vecF3]
  rfl

theorem gyroF_eq (w : V3) : vecF F w [] = gyroF F (pureQ w) := by
  rw [vecF3]
  rfl

theorem uninit3 (junk : ℕ → FX F) : Vec.uninit junk 3 = ⟨3, [junk 0, junk 1, junk 2]⟩ := rfl

theorem vec3F_rd (w : V3) : rd (vecF F w []).data 0 = ok (FX.of F (w 0)) ∧ rd (vecF F w []).data 1 = ok (FX.of F (w 1)) ∧
    rd (vecF F w []).data 2 = ok (FX.of F (w 2)) := by
  rw [vecF3]
  exact ⟨rfl, rfl, rfl⟩

theorem lit0_F : (lit 0 : FX F) = FX.of F 0 := by rw [FX.lit_eq, Rat.cast_zero, F.rnd_zero]

theorem lit1_F : (lit 1 : FX F) = FX.of F 1 := by rw [FX.lit_eq, Rat.cast_one, F.one]

theorem addAt_F (w : V3) (i : Fin 3) (x : ℝ) :
    addAt (vecF F w []) i (FX.of F x) = ok (vecF F (Function.update w i (F.rnd (w i + x))) []) := by
  rw [vecF3, vecF3]
  fin_cases i <;> simp [addAt, rd, wr]

theorem clampAt_F (w : V3) (i : Fin 3) (l : ℝ) : ∃ w' : V3, clampAt (vecF F w []) i (FX.of F l) = ok (vecF F w' []) := by
  have h : ∀ x : ℝ, wr (vecF F w []).data i (FX.of F x) = ok (vecF F (Function.update w i x) []).data := by
    intro x
    rw [vecF3, vecF3]
    fin_cases i <;> simp [wr]
  have hr : rd (vecF F w []).data i = ok (FX.of F (w i)) := by
    obtain ⟨h0, h1, h2⟩ := vec3F_rd (F := F) w
    fin_cases i
    · exact h0
    · exact h1
    · exact h2
  unfold clampAt
  rw [hr, ok_bind]
  by_cases h1 : l < w i
  · refine ⟨Function.update w i l, ?_⟩
    rw [if_pos (by rw [FX.of_gt]; exact h1), h, ok_bind]
    rfl
  · rw [if_neg (by rw [FX.of_gt]; exact h1)]
    by_cases h2 : w i < -l
    · refine ⟨Function.update w i (-l), ?_⟩
      rw [FX.of_neg, if_pos (by rw [FX.of_lt]; exact h2), h, ok_bind]
      rfl
    · refine ⟨w, ?_⟩
      rw [FX.of_neg, if_neg (by rw [FX.of_lt]; exact h2)]
      rfl

theorem dt_F {f : ℕ} (hf : 0 < f) : (lit 1 / CReal.ofNat f : FX F) = FX.of F (F.rnd (1 / F.rnd f)) ∧ 0 ≤ F.rnd (1 / F.rnd f) := by
  have h : 0 < F.rnd (f : ℝ) := F.rnd_pos (by exact_mod_cast hf)
  rw [lit1_F, FX.ofNat_eq, FX.of_div h.ne']
  exact ⟨rfl, F.rnd_nonneg (by positivity)⟩

theorem mahnFeedback_F {f : ℕ} (hf : 0 < f) (kp ki l : ℝ) (fb e g : V3) :
    ∃ fb' g' : V3, mahnFeedback f ⟨FX.of F kp, FX.of F ki, FX.of F l, vecF F fb []⟩ (vecF F e []) (vecF F g []) =
      ok (vecF F fb' [], vecF F g' []) := by
  unfold mahnFeedback
  obtain ⟨r0, r1, r2⟩ := vec3F_rd (F := F) e
  rw [r0, r1, r2]
  simp only [ok_bind, (dt_F hf).1, FX.of_mul]
  have a0 := fun (x : V3) (y : ℝ) => addAt_F (F := F) x 0 y
  have a1 := fun (x : V3) (y : ℝ) => addAt_F (F := F) x 1 y
  have a2 := fun (x : V3) (y : ℝ) => addAt_F (F := F) x 2 y
  simp only [Fin.val_zero, Fin.val_one, Fin.val_two] at a0 a1 a2
  rw [a0, ok_bind, a1, ok_bind, a2, ok_bind]
  obtain ⟨w0, c0⟩ := clampAt_F (F := F) (Function.update (Function.update (Function.update fb 0 _) 1 _) 2 _) 0 l
  rw [Fin.val_zero] at c0
  rw [c0, ok_bind]
  obtain ⟨w1, c1⟩ := clampAt_F (F := F) w0 1 l
  rw [Fin.val_one] at c1
  rw [c1, ok_bind]
  obtain ⟨w2, c2⟩ := clampAt_F (F := F) w1 2 l
  rw [Fin.val_two] at c2
  rw [c2, ok_bind]
  obtain ⟨s0, s1, s2⟩ := vec3F_rd (F := F) w2
  rw [s0, s1, s2]
  simp only [ok_bind, FX.of_mul, a0, a1, a2]
  exact ⟨_, _, rfl⟩

theorem pureQ_re (w : V3) : (pureQ w).re = 0 := rfl

/-- Rotating a pure quaternion gives numbers. -/
theorem quatRot_num (hu : F.u ≤ 1 / 64) (q : ℍ[ℝ]) (hq : 2e-6 ≤ ‖q‖) (b : ℍ[ℝ]) (hb : b.re = 0) (z : Quat (FX F)) :
    ∃ c : ℍ[ℝ], quatRot (qF F q) (qF F b) z = (0, qF F c) := by
  obtain ⟨c, h, _⟩ := quat_rot_rounding F (by linarith) q b hq (by rw [hb, abs_zero]; exact F.rnd_nonneg (by norm_num)) z
  exact ⟨c, h⟩

theorem fusCrossError_F (hu : F.u ≤ 1 / 64) (junk : ℕ → FX F) (q : ℍ[ℝ]) (hq : 2e-6 ≤ ‖q‖) (b : ℍ[ℝ]) (hb : b.re = 0) (a : V3) :
    ∃ e : V3, fusCrossError junk (qF F q) (qF F b) (vecF F a []) = ok (vecF F e []) := by
  obtain ⟨c, h⟩ := quatRot_num hu q hq b hb (quatJunk junk)
  unfold fusCrossError
  rw [h, uninit3, vecF3]
  refine ⟨![F.rnd (F.rnd (a 1 * c.imK) - F.rnd (a 2 * c.imJ)), F.rnd (F.rnd (a 2 * c.imI) - F.rnd (a 0 * c.imK)),
    F.rnd (F.rnd (a 0 * c.imJ) - F.rnd (a 1 * c.imI))], ?_⟩
  rw [← mk3F]
  unfold vecCross
  simp [qF, quatF, rd, wr]

theorem quatUp_F : (quatUp : Quat (FX F)) = qF F (hq 0 0 0 1) := by
  unfold quatUp
  rw [lit0_F, lit1_F]
  rfl

/-- The attitude after the integration: of length one up to twelve roundings of its square. -/
theorem fusIntegrate_F (hu : F.u ≤ 1 / 64) {f : ℕ} (hf : 0 < f) (g : V3) (q : ℍ[ℝ]) (hq : 2e-6 ≤ ‖q‖) :
    ∃ c : ℍ[ℝ], fusIntegrate f (vecF F g []) (qF F q) = ok (qF F c) ∧ Near F.u 12 (‖c‖ ^ 2) 1 := by
  unfold fusIntegrate
  rw [(dt_F hf).1, gyroF_eq]
  obtain ⟨c, h, hc, _⟩ := quat_from_ang_vel_rounding F hu (pureQ g) q rfl hq _ (dt_F (F := F) hf).2 (qF F q)
  rw [h, ok_bind]
  have hcn := norm_half (by linarith : F.u ≤ 1 / 16) hc
  obtain ⟨d, e, _, hd⟩ := quatToUnit_err (by linarith : F.u ≤ 1 / 16) c (by linarith)
  refine ⟨d, ?_, hd⟩
  rw [← e]
  rfl

theorem quatIsZero_F (hu : F.u ≤ 1 / 64) (q : ℍ[ℝ]) (hq : 2e-6 ≤ ‖q‖) : ¬ (quatIsZero (qF F q) = true) := by
  obtain ⟨m, e, hm⟩ := quatMagn_F F q.re q.imI q.imJ q.imK
  rw [qlen_norm] at hm
  have := magn_passes (by linarith) hm hq
  unfold quatIsZero
  change ¬ (CReal.lt (CReal.abs (quatMagn (quatF F q.re q.imI q.imJ q.imK))) (lit 1e-6) = true)
  rw [e, FX.of_abs, FX.lit_eq, FX.of_lt, not_lt]
  push_cast
  exact this.trans (le_abs_self m)

/-- A reading is judged valid or not; a valid one is not zero. -/
theorem sensValid_F (v : V3) : ∃ b : Bool, sensValid (some (vecF F v [])) = ok b ∧ (b = true → v ≠ 0) := by
  obtain ⟨r, e, h⟩ := vecNorm_F F v []
  refine ⟨_, by rw [sensValid, e, ok_bind, FX.of_abs, FX.lit_eq]; rfl, ?_⟩
  rintro hb rfl
  rw [FX.of_gt] at hb
  obtain ⟨t, _, et⟩ := h
  simp at et
  rw [et, abs_zero] at hb
  exact absurd hb (not_lt.2 (F.rnd_nonneg (by norm_num)))

theorem sensMissing_F (v : V3) : ∃ b : Bool, sensMissing (some (vecF F v [])) = ok b ∧ (b = false → v ≠ 0) := by
  obtain ⟨r, e, h⟩ := vecNorm_F F v []
  refine ⟨_, by rw [sensMissing, e, ok_bind, FX.of_abs, FX.lit_eq]; rfl, ?_⟩
  rintro hb rfl
  rw [Bool.eq_false_iff, ne_eq, FX.of_lt] at hb
  obtain ⟨t, _, et⟩ := h
  simp at et
  rw [et, abs_zero] at hb
  exact hb (F.rnd_pos (by norm_num))

theorem unitP_F (v : V3) (hv : v ≠ 0) : ∃ w : V3, unitP (some (vecF F v [])) = ok (vecF F w []) := by
  obtain ⟨y, e, _⟩ := vec_to_unit_rounding F v hv []
  exact ⟨y, by rw [unitP, e, ok_bind]; rfl⟩

theorem badSize_F (a : Option V3) : ¬ (badSize (a.map fun v => vecF F v []) = true) := by
  cases a <;> simp [badSize, vecF, vecOf]

theorem fusMahonyImu_F (hu : F.u ≤ 1 / 64) (junk : ℕ → FX F) {f : ℕ} (hf : 0 < f) (r : Reading) (m : Option (Vec (FX F))) (kp ki l : ℝ) (fb : V3)
    (q : ℍ[ℝ]) (hq : 2e-6 ≤ ‖q‖) :
    ∃ (s : Sens (FX F)) (fb' : V3) (q' : ℍ[ℝ]),
      fusMahonyImu junk f ⟨r.a.map fun v => vecF F v [], m, vecF F r.g []⟩ ⟨FX.of F kp, FX.of F ki, FX.of F l, vecF F fb []⟩ (qF F q) =
        ok (0, s, vecF F fb' [], qF F q') ∧ Near F.u 12 (‖q'‖ ^ 2) 1 := by
  unfold fusMahonyImu
  rw [if_neg (by
    rintro (h | h | h)
    · exact badSize_F r.a h
    · simp [vecF, vecOf] at h
    · simp [vecF, vecOf] at h), if_neg (quatIsZero_F hu q hq)]
  have hno : ∃ (s : Sens (FX F)) (fb' : V3) (q' : ℍ[ℝ]),
      (do let q ← fusIntegrate f (vecF F r.g []) (qF F q)
          return (0, ⟨r.a.map fun v => vecF F v [], m, vecF F r.g []⟩, vecF F fb [], q) : Out (Int × Sens (FX F) × Vec (FX F) × Quat (FX F))) =
        ok (0, s, vecF F fb' [], qF F q') ∧ Near F.u 12 (‖q'‖ ^ 2) 1 := by
    obtain ⟨c, h, hc⟩ := fusIntegrate_F hu hf r.g q hq
    exact ⟨_, fb, c, by rw [h, ok_bind]; rfl, hc⟩
  cases ha : r.a with
  | none =>
    rw [ha] at hno
    exact hno
  | some a =>
    obtain ⟨b, hb, hv⟩ := sensValid_F (F := F) a
    simp only [Option.map_some]
    rw [hb, ok_bind]
    cases b with
    | false =>
      rw [ha] at hno
      exact hno
    | true =>
      obtain ⟨w, hw⟩ := unitP_F (F := F) a (hv rfl)
      obtain ⟨e, he⟩ := fusCrossError_F hu junk q hq (Verif.hq 0 0 0 1) rfl w
      obtain ⟨fb', g', hfb⟩ := mahnFeedback_F (F := F) hf kp ki l fb e r.g
      obtain ⟨c, hc, hc1⟩ := fusIntegrate_F hu hf g' q hq
      rw [if_pos rfl, hw, ok_bind, quatUp_F, he, ok_bind, hfb, ok_bind]
      dsimp only
      rw [hc, ok_bind]
      exact ⟨_, fb', c, rfl, hc1⟩

/-- The inclination is not given, or the library's sine and cosine of it are numbers. -/
def InclNum (incl : Option (FX F)) : Prop :=
  ∀ x, incl = some x → ∃ a b : ℝ, CReal.cos (x * zslPi / lit 180) = FX.of F a ∧ CReal.sin (x * zslPi / lit 180) = FX.of F b

theorem fusEarthField_F (hu : F.u ≤ 1 / 64) (junk : ℕ → FX F) {incl : Option (FX F)} (hi : InclNum incl) (q : ℍ[ℝ]) (hq : 2e-6 ≤ ‖q‖) (b : ℍ[ℝ])
    (hb : b.re = 0) : ∃ x z : ℝ, fusEarthField junk incl (qF F q) (qF F b) = (FX.of F x, FX.of F z) := by
  unfold fusEarthField
  cases incl with
  | none =>
    obtain ⟨c, h⟩ := quatRot_num hu q hq b hb (quatJunk junk)
    rw [h]
    have h0 : 0 ≤ F.rnd (F.rnd (c.imI * c.imI) + F.rnd (c.imJ * c.imJ)) :=
      F.rnd_nonneg (add_nonneg (F.rnd_nonneg (mul_self_nonneg _)) (F.rnd_nonneg (mul_self_nonneg _)))
    refine ⟨F.rnd (Real.sqrt (F.rnd (F.rnd (c.imI * c.imI) + F.rnd (c.imJ * c.imJ)))), c.imK, ?_⟩
    dsimp only [qF, quatF]
    rw [FX.of_mul, FX.of_mul, FX.of_add, FX.of_sqrt h0]
  | some x =>
    obtain ⟨a, b, h1, h2⟩ := hi x rfl
    refine ⟨a, b, ?_⟩
    dsimp only
    rw [h1, h2]

theorem quatOfVec_F (v : V3) : quatOfVec (vecF F v []) = ok (qF F (pureQ v)) := by
  obtain ⟨r0, r1, r2⟩ := vec3F_rd (F := F) v
  unfold quatOfVec
  rw [r0, r1, r2, lit0_F]
  rfl

theorem fusMahony_F (hu : F.u ≤ 1 / 64) (junk : ℕ → FX F) {f : ℕ} (hf : 0 < f) {incl : Option (FX F)} (hi : InclNum incl) (r : Reading)
    (kp ki l : ℝ) (fb : V3) (q : ℍ[ℝ]) (hq : 2e-6 ≤ ‖q‖) :
    ∃ (s : Sens (FX F)) (fb' : V3) (q' : ℍ[ℝ]),
      fusMahony junk f incl (sensF F r) ⟨FX.of F kp, FX.of F ki, FX.of F l, vecF F fb []⟩ (qF F q) =
        ok (0, s, vecF F fb' [], qF F q') ∧ Near F.u 12 (‖q'‖ ^ 2) 1 := by
  unfold fusMahony
  rw [if_neg (by
    rintro (h | h | h | h)
    · exact badSize_F r.a h
    · exact badSize_F r.m h
    · simp [sensF, vecF, vecOf] at h
    · simp [vecF, vecOf] at h), if_neg (quatIsZero_F hu q hq)]
  have himu := fun m => fusMahonyImu_F hu junk hf r m kp ki l fb q hq
  cases hm : r.m with
  | none =>
    simp only [sensF, hm, Option.map_none, sensMissing, ok_bind]
    exact himu none
  | some m =>
    obtain ⟨b, hb, hv⟩ := sensMissing_F (F := F) m
    simp only [sensF, hm, Option.map_some]
    rw [hb, ok_bind]
    cases b with
    | true => exact himu _
    | false =>
      have hno : ∃ (s : Sens (FX F)) (fb' : V3) (q' : ℍ[ℝ]),
          (do let q ← fusIntegrate f (vecF F r.g []) (qF F q)
              return (0, ⟨r.a.map fun v => vecF F v [], some (vecF F m []), vecF F r.g []⟩, vecF F fb [], q) :
                Out (Int × Sens (FX F) × Vec (FX F) × Quat (FX F))) =
            ok (0, s, vecF F fb' [], qF F q') ∧ Near F.u 12 (‖q'‖ ^ 2) 1 := by
        obtain ⟨c, h, hc⟩ := fusIntegrate_F hu hf r.g q hq
        exact ⟨_, fb, c, by rw [h, ok_bind]; rfl, hc⟩
      rw [if_neg (by simp)]
      cases ha : r.a with
      | none =>
        rw [ha] at hno
        exact hno
      | some a =>
        obtain ⟨b, hb, hva⟩ := sensValid_F (F := F) a
        simp only [Option.map_some]
        rw [hb, ok_bind]
        cases b with
        | false =>
          rw [ha] at hno
          exact hno
        | true =>
          obtain ⟨w, hw⟩ := unitP_F (F := F) a (hva rfl)
          obtain ⟨x, hx⟩ := unitP_F (F := F) m (hv rfl)
          obtain ⟨eg, heg⟩ := fusCrossError_F hu junk q hq (Verif.hq 0 0 0 1) rfl w
          obtain ⟨bx, bz, hbf⟩ := fusEarthField_F hu junk hi q hq (pureQ x) rfl
          obtain ⟨eb, heb⟩ := fusCrossError_F hu junk q hq (Verif.hq 0 bx 0 bz) rfl x
          have hadd := (vec_elementwise_rounding F eg eb 0 (fun i : Fin 3 => junk i) [] [] []).1
          obtain ⟨fb', g', hfb⟩ := mahnFeedback_F (F := F) hf kp ki l fb (fun i => F.rnd (eg i + eb i)) r.g
          obtain ⟨c, hc, hc1⟩ := fusIntegrate_F hu hf g' q hq
          rw [if_pos rfl, hw, ok_bind, hx, ok_bind, quatUp_F, heg, ok_bind, quatOfVec_F, ok_bind, hbf]
          dsimp only
          rw [lit0_F]
          have heb' : fusCrossError junk (qF F q) ⟨FX.of F 0, FX.of F bx, FX.of F 0, FX.of F bz⟩ (vecF F x []) = ok (vecF F eb []) := heb
          have hun : Vec.uninit junk 3 = vecOf (fun i : Fin 3 => junk i) [] := by
            simp [uninit3, vecOf, arrOf, List.ofFn_succ]
          rw [hun]
          rw [heb', ok_bind, hadd, ok_bind]
          dsimp only
          rw [hfb, ok_bind]
          dsimp only
          rw [hc, ok_bind]
          exact ⟨_, fb', c, rfl, hc1⟩

/-- C163. One feed of the Mahony filter in floating point, with any readings (also missing ones and zeros), any gains that are not negative, any limit and
any feedback so far: it is accepted, no number becomes infinite or a NaN, and the new attitude has length one (its square up to twelve roundings). -/
theorem mahn_feed_rounding (hu : F.u ≤ 1 / 64) (junk : ℕ → FX F) {f : ℕ} (hf : 0 < f) {incl : Option (FX F)} (hi : InclNum incl) (r : Reading)
    (kp ki l : ℝ) (hp : 0 ≤ kp) (hk : 0 ≤ ki) (fb : V3) (q : ℍ[ℝ]) (hq : 2e-6 ≤ ‖q‖) :
    ∃ (s : Sens (FX F)) (fb' : V3) (q' : ℍ[ℝ]),
      fusMahnFeed junk f incl (sensF F r) ⟨FX.of F kp, FX.of F ki, FX.of F l, vecF F fb []⟩ (qF F q) =
        ok (0, s, ⟨FX.of F kp, FX.of F ki, FX.of F l, vecF F fb' []⟩, qF F q') ∧ |‖q'‖ ^ 2 - 1| ≤ gam F.u 12 ∧ 2e-6 ≤ ‖q'‖ := by
  obtain ⟨s, fb', q', e, h⟩ := fusMahony_F hu junk hf hi r kp ki l fb q hq
  refine ⟨s, fb', q', ?_, by simpa using h.err F, by linarith [norm_half (by linarith : F.u ≤ 1 / 16) h]⟩
  unfold fusMahnFeed
  rw [lit0_F, if_neg (by simp [hp, hk]), e, ok_bind]
  rfl

/-- C163. Over every history of feeds of the Mahony filter in floating point, however long, the attitude stays a quaternion of numbers with length one
(its square up to twelve roundings): errors do not accumulate. -/
theorem mahn_history_rounding (hu : F.u ≤ 1 / 64) (junk : ℕ → FX F) {f : ℕ} (hf : 0 < f) {incl : Option (FX F)} (hi : InclNum incl) (rs : List Reading)
    (kp ki l : ℝ) (hp : 0 ≤ kp) (hk : 0 ≤ ki) (fb : V3) (q : ℍ[ℝ]) (hq : 2e-6 ≤ ‖q‖) :
    ∃ (fb' : V3) (q' : ℍ[ℝ]),
      rs.foldlM (fun st r => fusMahnFeed junk f incl (sensF F r) st.1 st.2 >>= fun x => ok (x.2.2.1, x.2.2.2))
        ((⟨FX.of F kp, FX.of F ki, FX.of F l, vecF F fb []⟩ : MahnCfg (FX F)), qF F q) =
          ok (⟨FX.of F kp, FX.of F ki, FX.of F l, vecF F fb' []⟩, qF F q') ∧ (rs ≠ [] → |‖q'‖ ^ 2 - 1| ≤ gam F.u 12) := by
  induction rs generalizing fb q with
  | nil => exact ⟨fb, q, rfl, fun h => absurd rfl h⟩
  | cons r rs ih =>
    obtain ⟨s, fb1, q1, e, h1, h2⟩ := mahn_feed_rounding hu junk hf hi r kp ki l hp hk fb q hq
    obtain ⟨fb2, q2, e2, h3⟩ := ih fb1 q1 h2
    by_cases hn : rs = []
    · subst hn
      refine ⟨fb1, q1, ?_, fun _ => h1⟩
      rw [List.foldlM_cons, e]
      rfl
    · refine ⟨fb2, q2, ?_, fun _ => h3 hn⟩
      rw [List.foldlM_cons, e]
      exact e2

/-- Non-vacuity: no inclination given. -/
example : InclNum (none : Option (FX F)) := by
  intro x h
  simp at h

end Verif
