import Verif.Props.Round19

/-!
# The complementary filter in floating point (C163)
-/

set_option linter.unusedSectionVars false

namespace Verif

open Out Quaternion

variable {F : Rounding}

/-- A mathematical library in which the sine and the cosine of a number, and `atan2` of two numbers, are numbers. -/
def NumTrig (F : Rounding) : Prop :=
  (∀ x : ℝ, ∃ y, F.lib.fn1 "sin" (XR.fin x) = XR.fin y) ∧ (∀ x : ℝ, ∃ y, F.lib.fn1 "cos" (XR.fin x) = XR.fin y) ∧
    ∀ x y : ℝ, ∃ z, F.lib.atan2 (XR.fin x) (XR.fin y) = XR.fin z

theorem NumTrig.sin (h : NumTrig F) (x : ℝ) : ∃ y, CReal.sin (FX.of F x) = FX.of F y := by
  obtain ⟨y, e⟩ := h.1 x
  exact ⟨y, congrArg FX.mk e⟩

theorem NumTrig.cos (h : NumTrig F) (x : ℝ) : ∃ y, CReal.cos (FX.of F x) = FX.of F y := by
  obtain ⟨y, e⟩ := h.2.1 x
  exact ⟨y, congrArg FX.mk e⟩

theorem NumTrig.atan2 (h : NumTrig F) (x y : ℝ) : ∃ z, CReal.atan2 (FX.of F x) (FX.of F y) = FX.of F z := by
  obtain ⟨z, e⟩ := h.2.2 x y
  exact ⟨z, congrArg FX.mk e⟩

/-- Normalising any quaternion of numbers gives zero or a quaternion of length one up to twelve roundings. -/
theorem quatToUnit_or (q : ℍ[ℝ]) : ∃ c : ℍ[ℝ], quatToUnit (qF F q) = qF F c ∧ (c = 0 ∨ Near F.u 12 (‖c‖ ^ 2) 1) := by
  obtain ⟨m, e, hm⟩ := quatMagn_F F q.re q.imI q.imJ q.imK
  by_cases hbig : |m| < F.rnd (1e-6 : ℝ)
  · refine ⟨0, ?_, Or.inl rfl⟩
    unfold quatToUnit
    rw [show quatMagn (qF F q) = FX.of F m from e]
    dsimp only
    rw [FX.of_abs, FX.lit_eq, if_pos (by rw [FX.of_lt]; exact_mod_cast hbig), lit0_F]
    rfl
  · have hq : 0 < qlen q.re q.imI q.imJ q.imK := by
      refine lt_of_le_of_ne (Real.sqrt_nonneg _) fun h => hbig ?_
      obtain ⟨t, _, et⟩ := hm
      rw [et, ← h, zero_mul, abs_zero]
      exact F.rnd_pos (by norm_num)
    have hm0 := hm.pos F hq
    have hd : ∀ x, Near F.u 6 (F.rnd (x / m)) (x / qlen q.re q.imI q.imJ q.imK) := fun x =>
      (Near.mono' F (((Near.refl F (k := 0) x).div F hm).rnd F) (by omega))
    refine ⟨Verif.hq (F.rnd (q.re / m)) (F.rnd (q.imI / m)) (F.rnd (q.imJ / m)) (F.rnd (q.imK / m)), ?_, Or.inr ?_⟩
    · unfold quatToUnit
      rw [show quatMagn (qF F q) = FX.of F m from e]
      dsimp only
      rw [FX.of_abs, FX.lit_eq, if_neg (by rw [FX.of_lt]; exact_mod_cast hbig)]
      unfold qF quatF
      dsimp only
      rw [FX.of_div hm0.ne', FX.of_div hm0.ne', FX.of_div hm0.ne', FX.of_div hm0.ne']
      rfl
    · generalize q.re = a at *
      generalize q.imI = b at *
      generalize q.imJ = c at *
      generalize q.imK = d at *
      have hsq : ∀ x, Near F.u 12 (F.rnd (x / m) * F.rnd (x / m)) (x / qlen a b c d * (x / qlen a b c d)) := fun x => (hd x).mul F (hd x)
      have hs := (((hsq a).add_nonneg F (hsq b) (mul_self_nonneg _) (mul_self_nonneg _)).add_nonneg F (hsq c) (add_nonneg (mul_self_nonneg _) (mul_self_nonneg _))
        (mul_self_nonneg _)).add_nonneg F (hsq d) (add_nonneg (add_nonneg (mul_self_nonneg _) (mul_self_nonneg _)) (mul_self_nonneg _)) (mul_self_nonneg _)
      rw [norm_sq_quat]
      convert hs using 1
      · simp [pow_two]
      · have : qlen a b c d * qlen a b c d = a * a + b * b + c * c + d * d := Real.mul_self_sqrt (add_nonneg (add_nonneg (add_nonneg (mul_self_nonneg _) (mul_self_nonneg _)) (mul_self_nonneg _)) (mul_self_nonneg _))
        field_simp
        rw [pow_two, this]
        ring

theorem qF_eq (a b c d : ℝ) : (⟨FX.of F a, FX.of F b, FX.of F c, FX.of F d⟩ : Quat (FX F)) = qF F (Verif.hq a b c d) := rfl

theorem attFromAccelmag_num (ht : NumTrig F) (junk : ℕ → FX F) (a m : V3) (z : Attitude (FX F)) :
    ∃ r p y : ℝ, attFromAccelmag junk (vecF F a []) (vecF F m []) z = ok (0, ⟨FX.of F r, FX.of F p, FX.of F y⟩) := by
  have hun : Vec.uninit junk 3 = vecOf (fun i : Fin 3 => junk i) [] := by
    simp [uninit3, vecOf, arrOf, List.ofFn_succ]
  have hcp : ∀ v : V3, vecCopy (Vec.uninit junk 3) (vecF F v []) = ok (0, vecF F v []) := fun v => by
    rw [hun]; exact vecCopy_vec _ _ _ _
  obtain ⟨m', em⟩ := vecToUnit_num (F := F) m
  obtain ⟨a', ea⟩ := vecToUnit_num (F := F) a
  obtain ⟨r0, r1, r2⟩ := vec3F_rd (F := F) m'
  obtain ⟨s0, s1, s2⟩ := vec3F_rd (F := F) a'
  have h0 : 0 ≤ F.rnd (F.rnd (a' 1 * a' 1) + F.rnd (a' 2 * a' 2)) := F.rnd_nonneg (add_nonneg (F.rnd_nonneg (mul_self_nonneg _)) (F.rnd_nonneg (mul_self_nonneg _)))
  obtain ⟨t1, e1⟩ := ht.atan2 (a' 1) (a' 2)
  obtain ⟨t2, e2⟩ := ht.atan2 (-a' 0) (F.rnd (Real.sqrt (F.rnd (F.rnd (a' 1 * a' 1) + F.rnd (a' 2 * a' 2)))))
  have hacc : attFromAccel junk (vecF F a []) ⟨junk 0, junk 1, junk 2⟩ =
      ok (0, ⟨FX.of F t1 * radToDeg, FX.of F t2 * radToDeg, lit 0⟩) := by
    unfold attFromAccel
    rw [if_neg (by simp [vecF, vecOf]), hcp, ok_bind]
    dsimp only
    rw [ea, ok_bind]
    dsimp only
    rw [s0, s1, s2]
    simp only [ok_bind, FX.of_mul, FX.of_add, FX.of_neg]
    rw [FX.of_sqrt h0, e1, e2]
    rfl
  unfold attFromAccelmag
  rw [if_neg (by simp [vecF, vecOf]), hcp, ok_bind]
  dsimp only
  rw [em, ok_bind]
  dsimp only
  rw [hacc, ok_bind, r0, r1, r2]
  simp only [ok_bind, degToRad, radToDeg, FX.lit_eq, FX.of_mul]
  obtain ⟨x1, f1⟩ := ht.sin (F.rnd (F.rnd (t1 * F.rnd ((57.295779513 : ℚ) : ℝ)) * F.rnd ((0.01745329252 : ℚ) : ℝ)))
  obtain ⟨x2, f2⟩ := ht.cos (F.rnd (F.rnd (t1 * F.rnd ((57.295779513 : ℚ) : ℝ)) * F.rnd ((0.01745329252 : ℚ) : ℝ)))
  obtain ⟨x3, f3⟩ := ht.sin (F.rnd (F.rnd (t2 * F.rnd ((57.295779513 : ℚ) : ℝ)) * F.rnd ((0.01745329252 : ℚ) : ℝ)))
  obtain ⟨x4, f4⟩ := ht.cos (F.rnd (F.rnd (t2 * F.rnd ((57.295779513 : ℚ) : ℝ)) * F.rnd ((0.01745329252 : ℚ) : ℝ)))
  rw [f1, f2, f3, f4]
  simp only [FX.of_mul, FX.of_add, FX.of_sub]
  obtain ⟨x5, f5⟩ := ht.atan2 (F.rnd (F.rnd (m' 2 * x1) - F.rnd (m' 1 * x2)))
    (F.rnd (F.rnd (m' 0 * x4) + F.rnd (x3 * F.rnd (F.rnd (m' 1 * x1) + F.rnd (m' 2 * x2)))))
  rw [f5, FX.of_mul]
  exact ⟨_, _, _, rfl⟩

theorem quatFromEuler_num (ht : NumTrig F) (x y z : ℝ) : ∃ c : ℍ[ℝ], quatFromEuler ⟨FX.of F x, FX.of F y, FX.of F z⟩ = qF F c := by
  unfold quatFromEuler
  simp only [FX.lit_eq, FX.of_mul]
  obtain ⟨x1, f1⟩ := ht.cos (F.rnd (x * F.rnd ((0.5 : ℚ) : ℝ)))
  obtain ⟨x2, f2⟩ := ht.sin (F.rnd (x * F.rnd ((0.5 : ℚ) : ℝ)))
  obtain ⟨x3, f3⟩ := ht.cos (F.rnd (y * F.rnd ((0.5 : ℚ) : ℝ)))
  obtain ⟨x4, f4⟩ := ht.sin (F.rnd (y * F.rnd ((0.5 : ℚ) : ℝ)))
  obtain ⟨x5, f5⟩ := ht.cos (F.rnd (z * F.rnd ((0.5 : ℚ) : ℝ)))
  obtain ⟨x6, f6⟩ := ht.sin (F.rnd (z * F.rnd ((0.5 : ℚ) : ℝ)))
  rw [f1, f2, f3, f4, f5, f6]
  simp only [FX.of_mul, FX.of_add, FX.of_sub]
  exact ⟨_, qF_eq _ _ _ _⟩

theorem quatLerp_num (a b : ℍ[ℝ]) (t : ℝ) (h0 : 0 ≤ t) (h1 : t ≤ 1) (qi : Quat (FX F)) :
    ∃ c : ℍ[ℝ], quatLerp (qF F a) (qF F b) (FX.of F t) qi = (0, qF F c) := by
  obtain ⟨a', ea, -⟩ := quatToUnit_or (F := F) a
  obtain ⟨b', eb, -⟩ := quatToUnit_or (F := F) b
  unfold quatLerp
  rw [lit0_F, lit1_F, if_neg (by simp [h0, h1])]
  dsimp only
  rw [ea, eb, FX.of_sub]
  obtain ⟨c, ec, -⟩ := quatToUnit_or (F := F) (fadd F (fscale F a' (F.rnd (1 - t))) (fscale F b' t))
  exact ⟨c, congrArg (fun x => ((0 : ℤ), x)) ec⟩

/-- C163. One feed of the complementary filter in floating point, with any readings (also missing ones and zeros) and any weight from zero to one: it is accepted, no number becomes
infinite or a NaN, and the new attitude has length one (its square up to twelve roundings), or is zero (which happens when the two estimates cancel, see `comp_zero_attitude`). Without
an accelerometer or a magnetometer it is not zero. -/
theorem comp_feed_rounding (hu : F.u ≤ 1 / 64) (ht : NumTrig F) (junk : ℕ → FX F) {f : ℕ} (hf : 0 < f) (r : Reading) (al : ℝ) (h0 : 0 ≤ al) (h1 : al ≤ 1) (q : ℍ[ℝ]) (hq : 2e-6 ≤ ‖q‖) :
    ∃ q' : ℍ[ℝ], fusCompFeed junk f (FX.of F al) (sensF F r) (qF F q) = ok (0, qF F q') ∧ ((q' = 0 ∧ r.a ≠ none ∧ r.m ≠ none) ∨ |‖q'‖ ^ 2 - 1| ≤ gam F.u 12) := by
  have hu' : F.u ≤ 1 / 16 := by linarith
  obtain ⟨c, ec, -, hc⟩ := quatToUnit_err hu' q hq
  obtain ⟨w, ew, hw, -⟩ := quat_from_ang_vel_rounding F hu (pureQ r.g) c (pureQ_re _) (by linarith [norm_half hu' hc]) _ (dt_F (F := F) hf).2 (quatJunk junk)
  have hno : ∃ q' : ℍ[ℝ], (ok (0, quatToUnit (qF F w)) : Out (Int × Quat (FX F))) = ok (0, qF F q') ∧ |‖q'‖ ^ 2 - 1| ≤ gam F.u 12 := by
    obtain ⟨d, ed, -, hd⟩ := quatToUnit_err hu' w (by linarith [norm_half hu' hw])
    exact ⟨d, by rw [ed], by simpa using hd.err F⟩
  unfold fusCompFeed
  rw [lit0_F, lit1_F, if_neg (by simp [h0, h1])]
  unfold fusComp
  rw [if_neg (by
    rintro (h | h | h | h | h)
    · exact badSize_F r.a h
    · exact badSize_F r.m h
    · simp [sensF, vecF, vecOf] at h
    · rw [lit0_F] at h; simp at h; linarith
    · rw [lit1_F] at h; simp at h; linarith), if_neg (quatIsZero_F hu q hq)]
  dsimp only
  rw [ec, (dt_F hf).1, show (sensF F r).g = gyroF F (pureQ r.g) from gyroF_eq r.g, ew, ok_bind]
  dsimp only
  cases hm : r.m with
  | none =>
    obtain ⟨d, h1, h2⟩ := hno
    refine ⟨d, ?_, Or.inr h2⟩
    simp only [sensF, hm, Option.map_none, sensValid, ok_bind]
    cases r.a <;> exact h1
  | some m =>
    cases ha : r.a with
    | none =>
      obtain ⟨d, h1, h2⟩ := hno
      refine ⟨d, ?_, Or.inr h2⟩
      obtain ⟨b, hb, -⟩ := sensValid_F (F := F) m
      simp only [sensF, hm, ha, Option.map_none, Option.map_some]
      rw [hb, ok_bind]
      cases b <;> exact h1
    | some a =>
      obtain ⟨b, hb, -⟩ := sensValid_F (F := F) m
      obtain ⟨b', hb', -⟩ := sensValid_F (F := F) a
      simp only [sensF, hm, ha, Option.map_some]
      rw [hb, ok_bind]
      have hno' : ∃ q' : ℍ[ℝ], (ok (0, quatToUnit (qF F w)) : Out (Int × Quat (FX F))) = ok (0, qF F q') ∧
          ((q' = 0 ∧ some a ≠ none ∧ some m ≠ none) ∨ |‖q'‖ ^ 2 - 1| ≤ gam F.u 12) := by
        obtain ⟨d, h1, h2⟩ := hno
        exact ⟨d, h1, Or.inr h2⟩
      cases b with
      | false => exact hno'
      | true =>
        rw [if_pos rfl, hb', ok_bind]
        cases b' with
        | false => exact hno'
        | true =>
          obtain ⟨x, y, z, e1⟩ := attFromAccelmag_num ht junk a m ⟨junk 0, junk 1, junk 2⟩
          dsimp only
          rw [e1, ok_bind]
          dsimp only
          unfold attToEuler
          dsimp only
          rw [degToRad, FX.lit_eq, FX.of_mul, FX.of_mul, FX.of_mul]
          obtain ⟨p, ep⟩ := quatFromEuler_num ht (F.rnd (x * F.rnd ((0.01745329252 : ℚ) : ℝ))) (F.rnd (y * F.rnd ((0.01745329252 : ℚ) : ℝ))) (F.rnd (z * F.rnd ((0.01745329252 : ℚ) : ℝ)))
          rw [ep]
          obtain ⟨l, el⟩ := quatLerp_num w p al h0 h1 (qF F c)
          rw [el]
          dsimp only
          obtain ⟨d, ed, hd⟩ := quatToUnit_or (F := F) l
          refine ⟨d, by rw [ed]; rfl, hd.imp (fun h => ⟨h, by simp, by simp⟩) fun h => ?_⟩
          simpa using h.err F

/-- C163. Once the attitude is zero every further feed is refused and leaves it zero. -/
theorem comp_zero_rounding (junk : ℕ → FX F) (f : ℕ) (al : ℝ) (h0 : 0 ≤ al) (h1 : al ≤ 1) (r : Reading) :
    fusCompFeed junk f (FX.of F al) (sensF F r) (qF F 0) = ok (-EINVAL, qF F 0) := by
  have hz : quatIsZero (qF F 0) = true := by
    obtain ⟨m, e, t, -, et⟩ := quatMagn_F F 0 0 0 0
    have hm : m = 0 := by rw [et]; simp [qlen]
    unfold quatIsZero
    rw [show quatMagn (qF F 0) = FX.of F m from e, hm, FX.of_abs, FX.lit_eq, FX.of_lt, abs_zero]
    exact F.rnd_pos (by norm_num)
  unfold fusCompFeed
  rw [lit0_F, lit1_F, if_neg (by simp [h0, h1])]
  unfold fusComp
  rw [hz]
  split <;> rfl

/-- C163. Over every history of feeds of the complementary filter in floating point, however long, with a weight which may change from feed to feed, no number becomes infinite or a NaN
and the attitude is zero or has length one (its square up to twelve roundings). -/
theorem comp_history_rounding (hu : F.u ≤ 1 / 64) (ht : NumTrig F) (junk : ℕ → FX F) {f : ℕ} (hf : 0 < f) (rs : List (Reading × ℝ)) (hr : ∀ r ∈ rs, 0 ≤ r.2 ∧ r.2 ≤ 1) (q : ℍ[ℝ]) (hq : 2e-6 ≤ ‖q‖) :
    ∃ q' : ℍ[ℝ], rs.foldlM (fun q r => fusCompFeed junk f (FX.of F r.2) (sensF F r.1) q >>= fun x => ok x.2) (qF F q) = ok (qF F q') ∧
      (rs ≠ [] → q' = 0 ∨ |‖q'‖ ^ 2 - 1| ≤ gam F.u 12) := by
  have hz : ∀ rs : List (Reading × ℝ), (∀ r ∈ rs, 0 ≤ r.2 ∧ r.2 ≤ 1) →
      rs.foldlM (fun q r => fusCompFeed junk f (FX.of F r.2) (sensF F r.1) q >>= fun x => ok x.2) (qF F 0) = ok (qF F 0) := by
    intro rs
    induction rs with
    | nil => exact fun _ => rfl
    | cons r rs ih =>
      intro h
      rw [List.foldlM_cons, comp_zero_rounding junk f r.2 (h r (by simp)).1 (h r (by simp)).2]
      exact ih fun r h' => h r (List.mem_cons_of_mem _ h')
  induction rs generalizing q with
  | nil => exact ⟨q, rfl, fun h => absurd rfl h⟩
  | cons r rs ih =>
    obtain ⟨q1, e, h1⟩ := comp_feed_rounding hu ht junk hf r.1 r.2 (hr r (by simp)).1 (hr r (by simp)).2 q hq
    rw [List.foldlM_cons, e]
    rcases h1 with ⟨h1, -⟩ | h1
    · refine ⟨0, ?_, fun _ => Or.inl rfl⟩
      rw [h1]
      exact hz rs fun r h' => hr r (List.mem_cons_of_mem _ h')
    · have h2 : 2e-6 ≤ ‖q1‖ := by
        have hg : gam F.u 12 ≤ 1 / 2 := by
          have h : (63 / 64 : ℝ) ^ 12 ≤ (1 - F.u) ^ 12 := pow_le_pow_left₀ (by norm_num) (by linarith) 12
          unfold gam
          have : ((1 - F.u) ^ 12)⁻¹ ≤ ((63 / 64 : ℝ) ^ 12)⁻¹ := inv_anti₀ (by norm_num) h
          have h2 : ((63 / 64 : ℝ) ^ 12)⁻¹ ≤ 1 + 1 / 2 := by norm_num
          linarith
        have := (abs_le.1 h1).1
        nlinarith [norm_nonneg q1]
      obtain ⟨q2, e2, h3⟩ := ih (fun r h' => hr r (List.mem_cons_of_mem _ h')) q1 h2
      refine ⟨q2, e2, fun _ => ?_⟩
      by_cases hn : rs = []
      · subst hn
        have : qF F q1 = qF F q2 := by
          have : (ok (qF F q1) : Out _) = ok (qF F q2) := e2
          exact Out.ok.inj this
        have : q1 = q2 := by
          simp only [qF, quatF, Quat.mk.injEq, FX.of_inj] at this
          exact QuaternionAlgebra.ext this.1 this.2.1 this.2.2.1 this.2.2.2
        rw [← this]
        exact Or.inr h1
      · exact h3 hn

/-- C163. A library that meets the hypotheses: correctly rounded functions. -/
example : NumTrig (nearestRounding 52 ⟨fun s x => if s = "sin" then CReal.sin x else CReal.cos x, fun y x => CReal.atan2 y x, fun x _ => x⟩) :=
  ⟨fun x => ⟨_, rfl⟩, fun x => ⟨_, rfl⟩, fun x y => ⟨_, XR.fin_atan2 _ _⟩⟩

end Verif
