import Verif.Lemmas.Fusion

/-!
# C63, C64, C65 for the Mahony filter
-/

namespace Verif

open Quaternion Matrix Out

/-- Gains, limit and integral feedback of a Mahony filter, as real numbers. -/
structure MahnSet where
  kp : ℝ
  ki : ℝ
  limit : ℝ
  fb : V3

/-- The `struct zsl_fus_mahn_cfg` with these values. -/
def MahnSet.cfg (c : MahnSet) : MahnCfg XR := ⟨XR.fin c.kp, XR.fin c.ki, XR.fin c.limit, vec c.fb []⟩

/-- The orientation error: measured up × estimated up, plus, when the magnetometer gives at least `1e-6`, measured field × estimated field. -/
noncomputable def mahnErr (incl : Option ℝ) (q : ℍ[ℝ]) (a : V3) (m : Option V3) : V3 :=
  match m with
  | none => unitOf a ⨯₃ turned q up
  | some m => if len m < 1e-6 then unitOf a ⨯₃ turned q up
    else unitOf a ⨯₃ turned q up + unitOf m ⨯₃ turned q (earthField incl q (unitOf m))

/-- The integral feedback after adding the error `e` for one sample period, limited. -/
noncomputable def mahnFb (freq : ℕ) (c : MahnSet) (e : V3) : V3 := fun i => clampR (c.fb i + e i * (1 / (freq : ℝ))) c.limit

/-- The corrected angular rate. -/
noncomputable def mahnRate (freq : ℕ) (c : MahnSet) (e g : V3) : V3 := fun i => g i + c.ki * mahnFb freq c e i + c.kp * e i

theorem mahnFeedback_vec {f : ℕ} (hf : 0 < f) (c : MahnSet) (e g : V3) :
    mahnFeedback f c.cfg (vec e []) (vec g []) = ok (vec (mahnFb f c e) [], vec (mahnRate f c e g) []) := by
  unfold mahnFeedback
  obtain ⟨r0, r1, r2⟩ := vec3_rd e []
  rw [r0, r1, r2]
  simp only [ok_bind, dt_eq hf, XR.fin_mul, MahnSet.cfg]
  have a0 := fun (x : V3) (y : ℝ) => addAt_vec x 0 y
  have a1 := fun (x : V3) (y : ℝ) => addAt_vec x 1 y
  have a2 := fun (x : V3) (y : ℝ) => addAt_vec x 2 y
  have c0 := fun (x : V3) (y : ℝ) => clampAt_vec x 0 y
  have c1 := fun (x : V3) (y : ℝ) => clampAt_vec x 1 y
  have c2 := fun (x : V3) (y : ℝ) => clampAt_vec x 2 y
  simp only [Fin.coe_ofNat_eq_mod, Nat.zero_mod, Nat.one_mod, Nat.mod_succ] at a0 a1 a2 c0 c1 c2
  have d0 := fun x : V3 => (vec3_rd x []).1
  have d1 := fun x : V3 => (vec3_rd x []).2.1
  have d2 := fun x : V3 => (vec3_rd x []).2.2
  simp only [a0, a1, a2, c0, c1, c2, ok_bind, d0, d1, d2, XR.fin_mul, pure_eq]
  congr 2

theorem gains_ok (c : MahnSet) (hp : 0 ≤ c.kp) (hi : 0 ≤ c.ki) :
    ¬ ((CReal.lt c.cfg.kp (lit 0) || CReal.lt c.cfg.ki (lit 0)) = true) := by
  simp [MahnSet.cfg, hp, hi]

theorem mahonyImu_accel (junk : ℕ → XR) {f : ℕ} (hf : 0 < f) (c : MahnSet) (q : ℍ[ℝ]) (hq : 1e-6 ≤ ‖q‖) (a : V3) (m : Option V3)
    (g : V3) (ha : 1e-6 < len a) :
    fusMahonyImu junk f (Reading.sens ⟨some a, m, g⟩) c.cfg (quat q) =
      ok (0, Reading.sens ⟨some (unitOf a), m, mahnRate f c (unitOf a ⨯₃ turned q up) g⟩, vec (mahnFb f c (unitOf a ⨯₃ turned q up)) [],
        quat (eulerStep f (mahnRate f c (unitOf a ⨯₃ turned q up) g) q)) := by
  unfold fusMahonyImu
  rw [if_neg (by simp [badSize_sensor, Reading.sens, MahnSet.cfg]), if_neg (quatIsZero_of_le hq)]
  simp only [Reading.sens]
  rw [sensValid_some, ok_bind, if_pos (by simpa using ha), unitP_some, ok_bind, quatUp_quat, fusCrossError_vec _ _ _ _ hq, ok_bind,
    mahnFeedback_vec hf, ok_bind]
  simp only
  rw [fusIntegrate_vec hf, ok_bind]
  rfl

theorem mahonyImu_gyro (junk : ℕ → XR) {f : ℕ} (hf : 0 < f) (c : MahnSet) (q : ℍ[ℝ]) (hq : 1e-6 ≤ ‖q‖) (r : Reading)
    (hv : sensValid (sensor r.a) = ok false) :
    fusMahonyImu junk f r.sens c.cfg (quat q) = ok (0, r.sens, vec c.fb [], quat (eulerStep f r.g q)) := by
  unfold fusMahonyImu
  rw [if_neg (by simp [badSize_sensor, Reading.sens, MahnSet.cfg]), if_neg (quatIsZero_of_le hq)]
  simp only [Reading.sens]
  rw [hv, ok_bind, if_neg (by simp), fusIntegrate_vec hf, ok_bind]
  rfl

theorem mahony_accel (junk : ℕ → XR) {f : ℕ} (hf : 0 < f) (incl : Option ℝ) (c : MahnSet) (q : ℍ[ℝ]) (hq : 1e-6 ≤ ‖q‖) (a : V3)
    (m : Option V3) (g : V3) (ha : 1e-6 < len a) :
    fusMahony junk f (optFin incl) (Reading.sens ⟨some a, m, g⟩) c.cfg (quat q) =
      ok (0, Reading.sens ⟨some (unitOf a), m.map fun v => if len v < 1e-6 then v else unitOf v,
          mahnRate f c (mahnErr incl q a m) g⟩,
        vec (mahnFb f c (mahnErr incl q a m)) [],
        quat (eulerStep f (mahnRate f c (mahnErr incl q a m) g) q)) := by
  unfold fusMahony
  rw [if_neg (by simp [badSize_sensor, Reading.sens, MahnSet.cfg]), if_neg (quatIsZero_of_le hq)]
  rw [show (Reading.sens ⟨some a, m, g⟩).m = sensor m from rfl, show (Reading.sens ⟨some a, m, g⟩).a = sensor (some a) from rfl,
    show (Reading.sens ⟨some a, m, g⟩).g = vec g [] from rfl]
  cases m with
  | none =>
    rw [sensMissing_none, ok_bind, if_pos rfl, mahonyImu_accel _ hf _ _ hq _ _ _ ha]
    rfl
  | some m =>
    rw [sensMissing_some, ok_bind]
    by_cases hm : len m < 1e-6
    · rw [if_pos (by simpa using hm), mahonyImu_accel _ hf _ _ hq _ _ _ ha]
      simp only [mahnErr, if_pos hm, Option.map_some]
    · rw [if_neg (by simpa using hm), sensValid_some, ok_bind, if_pos (by simpa using ha), unitP_some, ok_bind, unitP_some, ok_bind,
        quatUp_quat, fusCrossError_vec _ _ _ _ hq, ok_bind, quatOfVec_vec, ok_bind, fusEarthField_quat _ _ _ _ hq]
      simp only
      rw [earth_quat, fusCrossError_vec _ _ _ _ hq, ok_bind, vecUninit_eq, vecAdd_vec, ok_bind]
      simp only
      rw [mahnFeedback_vec hf, ok_bind]
      simp only
      rw [fusIntegrate_vec hf, ok_bind]
      simp only [mahnErr, if_neg hm, Option.map_some]
      rfl

theorem mahony_gyro (junk : ℕ → XR) {f : ℕ} (hf : 0 < f) (incl : Option ℝ) (c : MahnSet) (q : ℍ[ℝ]) (hq : 1e-6 ≤ ‖q‖) (r : Reading)
    (hv : sensValid (sensor r.a) = ok false) :
    fusMahony junk f (optFin incl) r.sens c.cfg (quat q) = ok (0, r.sens, vec c.fb [], quat (eulerStep f r.g q)) := by
  unfold fusMahony
  rw [if_neg (by simp [badSize_sensor, Reading.sens, MahnSet.cfg]), if_neg (quatIsZero_of_le hq)]
  rw [show r.sens.m = sensor r.m from rfl, show r.sens.a = sensor r.a from rfl, show r.sens.g = vec r.g [] from rfl]
  have gyro : (do
      let valid ← sensValid (sensor r.a)
      if valid then do
        let a ← unitP (sensor r.a)
        let m ← unitP (sensor r.m)
        let eg ← fusCrossError junk (quat q) quatUp a
        let qm ← quatOfVec m
        let (bx, bz) := fusEarthField junk (optFin incl) (quat q) qm
        let eb ← fusCrossError junk (quat q) ⟨lit 0, bx, lit 0, bz⟩ m
        let (_, e) ← vecAdd eg eb (Vec.uninit junk 3)
        let (fb, g) ← mahnFeedback f c.cfg e (vec r.g [])
        let q ← fusIntegrate f g (quat q)
        return ((0 : Int), (⟨some a, some m, g⟩ : Sens XR), fb, q)
      else do
        let q ← fusIntegrate f (vec r.g []) (quat q)
        return (0, r.sens, c.cfg.intfb, q)) = ok (0, r.sens, vec c.fb [], quat (eulerStep f r.g q)) := by
    rw [hv, ok_bind, if_neg (by simp), fusIntegrate_vec hf, ok_bind]
    rfl
  cases hm : r.m with
  | none => rw [sensMissing_none, ok_bind, if_pos rfl, mahonyImu_gyro _ hf _ _ hq _ hv]
  | some m =>
    rw [sensMissing_some, ok_bind]
    by_cases h : len m < 1e-6
    · rw [if_pos (by simpa using h), mahonyImu_gyro _ hf _ _ hq _ hv]
    · rw [hm] at gyro
      rw [if_neg (by simpa using h)]
      exact gyro

/-- C63. What one accepted feed of the Mahony filter does when the accelerometer gives more than `1e-6`: the accelerometer (and the
magnetometer, if used) is normalised in place, the error is accumulated and limited, the rate corrected, and the attitude advanced. -/
theorem mahn_feed_correct (junk : ℕ → XR) {f : ℕ} (hf : 0 < f) (incl : Option ℝ) (c : MahnSet) (hp : 0 ≤ c.kp) (hi : 0 ≤ c.ki)
    (q : ℍ[ℝ]) (hq : 1e-6 ≤ ‖q‖) (a : V3) (m : Option V3) (g : V3) (ha : 1e-6 < len a) :
    fusMahnFeed junk f (optFin incl) (Reading.sens ⟨some a, m, g⟩) c.cfg (quat q) =
      ok (0, Reading.sens ⟨some (unitOf a), m.map fun v => if len v < 1e-6 then v else unitOf v,
          mahnRate f c (mahnErr incl q a m) g⟩,
        MahnSet.cfg { c with fb := mahnFb f c (mahnErr incl q a m) },
        quat (eulerStep f (mahnRate f c (mahnErr incl q a m) g) q)) := by
  unfold fusMahnFeed
  rw [if_neg (gains_ok c hp hi), mahony_accel _ hf _ _ _ hq _ _ _ ha, ok_bind]
  rfl

example : ∃ s' c' q', fusMahnFeed (fun _ => XR.nan) 100 (optFin none) (Reading.sens ⟨some ![1, 2, 9], some ![3, 4, 5], ![1, 1, 1]⟩)
    (MahnSet.cfg ⟨0.2, 0.02, 1, 0⟩) (quat 1) = ok (0, s', MahnSet.cfg c', quat q') :=
  ⟨_, _, _, mahn_feed_correct _ (by norm_num) _ _ (by norm_num) (by norm_num) 1 (by norm_num) _ _ _ (lt_len (by simp; norm_num))⟩

/-- C63. Without an accelerometer reading above `1e-6` only the attitude is advanced with the gyroscope's rate. -/
theorem mahn_feed_gyro (junk : ℕ → XR) {f : ℕ} (hf : 0 < f) (incl : Option ℝ) (c : MahnSet) (hp : 0 ≤ c.kp) (hi : 0 ≤ c.ki)
    (q : ℍ[ℝ]) (hq : 1e-6 ≤ ‖q‖) (r : Reading) (ha : ∀ a, r.a = some a → len a ≤ 1e-6) :
    fusMahnFeed junk f (optFin incl) r.sens c.cfg (quat q) = ok (0, r.sens, c.cfg, quat (eulerStep f r.g q)) := by
  have hv : sensValid (sensor r.a) = ok false := by
    cases h : r.a with
    | none => rfl
    | some a => rw [sensValid_some]; simpa using ha a h
  unfold fusMahnFeed
  rw [if_neg (gains_ok c hp hi), mahony_gyro _ hf _ _ _ hq _ hv, ok_bind]
  rfl

/-- C63, C65. The Mahony feed rejects a negative gain, a sensor or feedback vector that is not three-dimensional, and an attitude
shorter than `1e-6`; then nothing at all is changed. For every scalar type. -/
theorem mahn_feed_rejects {R : Type} [CReal R] (junk : ℕ → R) (f : ℕ) (incl : Option R) (s : Sens R) (c : MahnCfg R) (q : Quat R)
    (h : CReal.lt c.kp (lit 0) = true ∨ CReal.lt c.ki (lit 0) = true ∨ (∃ a, s.a = some a ∧ a.sz ≠ 3) ∨
      (∃ m, s.m = some m ∧ m.sz ≠ 3) ∨ s.g.sz ≠ 3 ∨ c.intfb.sz ≠ 3 ∨ CReal.lt (CReal.abs (quatMagn q)) (lit 1e-6) = true) :
    fusMahnFeed junk f incl s c q = ok (-EINVAL, s, c, q) := by
  unfold fusMahnFeed
  by_cases h1 : (CReal.lt c.kp (lit 0) || CReal.lt c.ki (lit 0)) = true
  · rw [if_pos h1]
  · rw [if_neg h1]
    simp only [Bool.or_eq_true, not_or] at h1
    unfold fusMahony
    by_cases h2 : badSize s.a = true ∨ badSize s.m = true ∨ s.g.sz ≠ 3 ∨ c.intfb.sz ≠ 3
    · rw [if_pos h2]; rfl
    · rw [if_neg h2]
      push Not at h2
      obtain ⟨b1, b2, b3, b4⟩ := h2
      rw [if_pos ?_]
      · rfl
      · rcases h with h | h | ⟨a, ha, hs⟩ | ⟨m, hm, hs⟩ | h | h | h
        · exact absurd h h1.1
        · exact absurd h h1.2
        · rw [ha] at b1; simp [badSize, hs] at b1
        · rw [hm] at b2; simp [badSize, hs] at b2
        · exact absurd b3 h
        · exact absurd b4 h
        · exact h

example : fusMahnFeed (fun _ => XR.fin 0) 100 none (Reading.sens ⟨none, none, 0⟩) (MahnSet.cfg ⟨-1, 0, 1, 0⟩) (quat 1) =
    ok (-EINVAL, Reading.sens ⟨none, none, 0⟩, MahnSet.cfg ⟨-1, 0, 1, 0⟩, quat 1) :=
  mahn_feed_rejects _ _ _ _ _ _ (Or.inl (by simp [MahnSet.cfg]))

/-- One call of the Mahony feed: sample frequency, optional inclination, reading, gains, limit. -/
structure MahnCall where
  freq : ℕ
  pos : 0 < freq
  incl : Option ℝ
  reading : Reading
  kp : ℝ
  ki : ℝ

/-- The feed as a transition of what the filter remembers: integral feedback and attitude. -/
noncomputable def mahnCall (junk : ℕ → XR) (limit : ℝ) (i : MahnCall) (s : Vec XR × Quat XR) : Out (Int × Vec XR × Quat XR) := do
  let (rc, _, c, q) ← fusMahnFeed junk i.freq (optFin i.incl) i.reading.sens ⟨XR.fin i.kp, XR.fin i.ki, XR.fin limit, s.1⟩ s.2
  return (rc, c.intfb, q)

theorem mahnCall_cases (junk : ℕ → XR) (limit : ℝ) (i : MahnCall) (fb : V3) (q : ℍ[ℝ]) :
    ∃ rc fb' q', mahnCall junk limit i (vec fb [], quat q) = ok (rc, vec fb' [], quat q') ∧
      ((rc = 0 ∧ ‖q'‖ = 1 ∧ (fb' = fb ∨ ∃ e, fb' = mahnFb i.freq ⟨i.kp, i.ki, limit, fb⟩ e)) ∨ (rc = -EINVAL ∧ fb' = fb ∧ q' = q)) := by
  let c : MahnSet := ⟨i.kp, i.ki, limit, fb⟩
  by_cases h : (0 ≤ i.kp ∧ 0 ≤ i.ki) ∧ 1e-6 ≤ ‖q‖
  · obtain ⟨⟨hp, hi⟩, hq⟩ := h
    by_cases ha : ∃ a, i.reading.a = some a ∧ 1e-6 < len a
    · obtain ⟨a, ha, hl⟩ := ha
      have := mahn_feed_correct junk i.pos i.incl c hp hi q hq a i.reading.m i.reading.g hl
      rw [← ha] at this
      refine ⟨0, mahnFb i.freq c (mahnErr i.incl q a i.reading.m),
        eulerStep i.freq (mahnRate i.freq c (mahnErr i.incl q a i.reading.m) i.reading.g) q, ?_,
        Or.inl ⟨rfl, norm_eulerStep _ _ hq, Or.inr ⟨mahnErr i.incl q a i.reading.m, rfl⟩⟩⟩
      unfold mahnCall
      refine Eq.trans (congrArg (fun x => x >>= _) this) ?_
      rfl
    · push Not at ha
      have := mahn_feed_gyro junk i.pos i.incl c hp hi q hq i.reading ha
      refine ⟨0, fb, eulerStep i.freq i.reading.g q, ?_, Or.inl ⟨rfl, norm_eulerStep _ _ hq, Or.inl rfl⟩⟩
      unfold mahnCall
      refine Eq.trans (congrArg (fun x => x >>= _) this) ?_
      rfl
  · refine ⟨-EINVAL, fb, q, ?_, Or.inr ⟨rfl, rfl, rfl⟩⟩
    have := mahn_feed_rejects junk i.freq (optFin i.incl) i.reading.sens c.cfg (quat q) (by
      by_cases hp : 0 ≤ i.kp
      · by_cases hi : 0 ≤ i.ki
        · refine Or.inr (Or.inr (Or.inr (Or.inr (Or.inr (Or.inr ?_)))))
          have : ‖q‖ < 1e-6 := by
            by_contra hc
            exact h ⟨⟨hp, hi⟩, not_lt.1 hc⟩
          have h2 := quatIsZero_quat q
          unfold quatIsZero at h2
          rw [h2]
          simpa using this
        · refine Or.inr (Or.inl ?_)
          simp [MahnSet.cfg, c]
          linarith
      · refine Or.inl ?_
        simp [MahnSet.cfg, c]
        linarith)
    unfold mahnCall
    refine Eq.trans (congrArg (fun x => x >>= _) this) ?_
    rfl

/-- C63. Over every history of calls of the Mahony feed, with arbitrary readings, gains, inclinations and frequencies, no call has
undefined behaviour, and after each the attitude is a unit quaternion (code 0) or, with the feedback, what it was before (`-EINVAL`). -/
theorem mahn_history_unit (junk : ℕ → XR) (limit : ℝ) (calls : List MahnCall) (fb : V3) (q : ℍ[ℝ]) :
    ∃ t : List (Int × V3 × ℍ[ℝ]),
      trace (mahnCall junk limit) calls (vec fb [], quat q) = ok (t.map fun x => (x.1, vec x.2.1 [], quat x.2.2)) ∧
      t.length = calls.length ∧
      List.IsChain (fun x y => (y.1 = 0 ∧ ‖y.2.2‖ = 1) ∨ (y.1 = -EINVAL ∧ y.2 = x.2)) ((0, fb, q) :: t) := by
  refine trace_chain (fun x : V3 × ℍ[ℝ] => (vec x.1 [], quat x.2)) (mahnCall junk limit)
    (fun x y => (y.1 = 0 ∧ ‖y.2.2‖ = 1) ∨ (y.1 = -EINVAL ∧ y.2 = x)) ?_ calls (fb, q) 0
  rintro i ⟨fb, q⟩
  obtain ⟨rc, fb', q', h1, h2⟩ := mahnCall_cases junk limit i fb q
  refine ⟨rc, (fb', q'), h1, ?_⟩
  rcases h2 with ⟨h, h', _⟩ | ⟨h, h', h''⟩
  · exact Or.inl ⟨h, h'⟩
  · exact Or.inr ⟨h, by rw [h', h'']⟩

/-- C63. Once started with an attitude of magnitude at least `1e-6` and nonnegative gains, the Mahony filter never rejects a reading, and
the attitude stays a unit quaternion forever. -/
theorem mahn_history_accepts (junk : ℕ → XR) (limit : ℝ) (calls : List MahnCall) (hc : ∀ i ∈ calls, 0 ≤ i.kp ∧ 0 ≤ i.ki) (fb : V3)
    (q : ℍ[ℝ]) (hq : 1e-6 ≤ ‖q‖) :
    ∃ t : List (Int × V3 × ℍ[ℝ]),
      trace (mahnCall junk limit) calls (vec fb [], quat q) = ok (t.map fun x => (x.1, vec x.2.1 [], quat x.2.2)) ∧
      t.length = calls.length ∧ ∀ y ∈ t, y.1 = 0 ∧ ‖y.2.2‖ = 1 := by
  induction calls generalizing fb q with
  | nil => exact ⟨[], rfl, rfl, by simp⟩
  | cons i l ih =>
    obtain ⟨hp, hi⟩ := hc i (by simp)
    have key : ∃ (fb' : V3) (q' : ℍ[ℝ]), mahnCall junk limit i (vec fb [], quat q) = ok (0, vec fb' [], quat q') ∧ ‖q'‖ = 1 := by
      let c : MahnSet := ⟨i.kp, i.ki, limit, fb⟩
      by_cases ha : ∃ a, i.reading.a = some a ∧ 1e-6 < len a
      · obtain ⟨a, ha, hl⟩ := ha
        have := mahn_feed_correct junk i.pos i.incl c hp hi q hq a i.reading.m i.reading.g hl
        rw [← ha] at this
        refine ⟨mahnFb i.freq c (mahnErr i.incl q a i.reading.m),
          eulerStep i.freq (mahnRate i.freq c (mahnErr i.incl q a i.reading.m) i.reading.g) q, ?_, norm_eulerStep i.freq _ hq⟩
        unfold mahnCall
        refine Eq.trans (congrArg (fun x => x >>= _) this) ?_
        rfl
      · push Not at ha
        have := mahn_feed_gyro junk i.pos i.incl c hp hi q hq i.reading ha
        refine ⟨fb, eulerStep i.freq i.reading.g q, ?_, norm_eulerStep i.freq _ hq⟩
        unfold mahnCall
        refine Eq.trans (congrArg (fun x => x >>= _) this) ?_
        rfl
    obtain ⟨fb', q', h1, h2⟩ := key
    obtain ⟨t, t1, t2, t3⟩ := ih (fun j hj => hc j (by simp [hj])) fb' q' (by rw [h2]; norm_num)
    refine ⟨(0, fb', q') :: t, ?_, by simp [t2], ?_⟩
    · unfold trace
      rw [h1, ok_bind]
      simp only
      rw [t1]
      rfl
    · intro y hy
      rcases List.mem_cons.1 hy with rfl | hy
      · exact ⟨rfl, h2⟩
      · exact t3 y hy

theorem abs_clampR {x l : ℝ} (hl : 0 ≤ l) : |clampR x l| ≤ l := by
  unfold clampR
  rw [abs_le]
  split_ifs with h1 h2
  · constructor <;> linarith
  · constructor <;> linarith
  · constructor <;> linarith

/-- C64. Over every history of calls with the same nonnegative limit, started with a feedback within the limit, every component of the
integral feedback stays within `[-limit, limit]`. -/
theorem mahn_integral_bounded (junk : ℕ → XR) (limit : ℝ) (hl : 0 ≤ limit) (calls : List MahnCall) (fb : V3) (q : ℍ[ℝ])
    (hfb : ∀ j, |fb j| ≤ limit) :
    ∃ t : List (Int × V3 × ℍ[ℝ]),
      trace (mahnCall junk limit) calls (vec fb [], quat q) = ok (t.map fun x => (x.1, vec x.2.1 [], quat x.2.2)) ∧
      t.length = calls.length ∧ ∀ y ∈ t, ∀ j, |y.2.1 j| ≤ limit := by
  refine trace_inv (fun x : V3 × ℍ[ℝ] => (vec x.1 [], quat x.2)) (mahnCall junk limit) (fun x => ∀ j, |x.1 j| ≤ limit) ?_ calls (fb, q) hfb
  rintro i ⟨fb, q⟩ h
  obtain ⟨rc, fb', q', h1, h2⟩ := mahnCall_cases junk limit i fb q
  refine ⟨rc, (fb', q'), h1, ?_⟩
  rcases h2 with ⟨_, _, rfl | ⟨e, rfl⟩⟩ | ⟨_, rfl, _⟩
  · exact h
  · exact fun j => abs_clampR hl
  · exact h

/-- C64. A single call with an accelerometer reading above `1e-6` brings the feedback within the limit from any value. -/
theorem mahn_integral_limited (junk : ℕ → XR) {f : ℕ} (hf : 0 < f) (incl : Option ℝ) (c : MahnSet) (hp : 0 ≤ c.kp) (hi : 0 ≤ c.ki)
    (hl : 0 ≤ c.limit) (q : ℍ[ℝ]) (hq : 1e-6 ≤ ‖q‖) (a : V3) (m : Option V3) (g : V3) (ha : 1e-6 < len a) :
    ∃ s' fb' q', fusMahnFeed junk f (optFin incl) (Reading.sens ⟨some a, m, g⟩) c.cfg (quat q) =
      ok (0, s', MahnSet.cfg { c with fb := fb' }, quat q') ∧ ∀ j, |fb' j| ≤ c.limit :=
  ⟨_, _, _, mahn_feed_correct junk hf incl c hp hi q hq a m g ha, fun _ => abs_clampR hl⟩

end Verif
