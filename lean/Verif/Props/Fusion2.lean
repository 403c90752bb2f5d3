import Verif.Props.Fusion1

/-!
# C63, C65 for the Madgwick filter
-/

namespace Verif

open Quaternion Matrix Out

/-- Four numbers as a quaternion. -/
def quat4 (d : Fin 4 → ℝ) : ℍ[ℝ] := hq (d 0) (d 1) (d 2) (d 3)

/-- The Jacobian the filter uses for the gravity residual, transposed. -/
def jacG (q : ℍ[ℝ]) : Matrix (Fin 4) (Fin 3) ℝ :=
  !![-2 * q.imJ, 2 * q.imI, 0; 2 * q.imK, 2 * q.re, -4 * q.imI; -2 * q.re, 2 * q.imK, -4 * q.imJ; 2 * q.imI, 2 * q.imJ, 0]

/-- The Jacobian the filter uses for the magnetic residual, transposed, for the field `(x, 0, z)`. -/
def jacB (x z : ℝ) (q : ℍ[ℝ]) : Matrix (Fin 4) (Fin 3) ℝ :=
  !![-2 * z * q.imJ, -2 * x * q.imK + 2 * z * q.imI, 2 * x * q.imJ;
     2 * z * q.imK, 2 * z * q.imJ + 2 * z * q.re, 2 * x * q.imK - 4 * z * q.imI;
     -4 * x * q.imJ - 2 * z * q.re, 2 * x * q.imI - 2 * z * q.imK, 2 * x * q.re - 2 * z * q.imJ;
     -4 * x * q.imK + 2 * z * q.imI, -2 * x * q.re + 2 * z * q.imJ, 2 * x * q.imI]

/-- The descent direction of the filter at the unit attitude `u`: with the accelerometer reading `a`, and the magnetometer reading if it is at least `1e-6` long. -/
noncomputable def madgDir (incl : Option ℝ) (u : ℍ[ℝ]) (a : V3) (m : Option V3) : Fin 4 → ℝ :=
  match m with
  | none => unitOf (jacG u *ᵥ (turned u up - unitOf a))
  | some m => if len m < 1e-6 then unitOf (jacG u *ᵥ (turned u up - unitOf a))
    else unitOf (jacG u *ᵥ (turned u up - unitOf a) +
      jacB (earthField incl u (unitOf m) 0) (earthField incl u (unitOf m) 2) u *ᵥ (turned u (earthField incl u (unitOf m)) - unitOf m))

/-- The next attitude: an Euler step with the rate `w`, then a step of length `beta / freq` against `d`, normalised. -/
noncomputable def madgStep (freq : ℕ) (beta : ℝ) (w : V3) (d : Fin 4 → ℝ) (q : ℍ[ℝ]) : ℍ[ℝ] :=
  direction (eulerStep freq w q - ((1 / (freq : ℝ)) * beta) • quat4 d)

theorem madgUpdate_vec {f : ℕ} (hf : 0 < f) (beta : ℝ) (w : V3) (d : Fin 4 → ℝ) (q : ℍ[ℝ]) :
    madgUpdate f (XR.fin beta) (vec w []) (vec d []) (quat q) = ok (quat (madgStep f beta w d q)) := by
  unfold madgUpdate
  simp only [dt_eq hf]
  rw [quatFromAngVel_vec _ _ _ _ _ (by positivity), ok_bind]
  have h0 := (vec_is d []).rd 0
  have h1 := (vec_is d []).rd 1
  have h2 := (vec_is d []).rd 2
  have h3 := (vec_is d []).rd 3
  simp only [Fin.coe_ofNat_eq_mod, Nat.zero_mod, Nat.one_mod, Nat.mod_succ, Nat.reduceMod] at h0 h1 h2 h3
  rw [h0, h1, h2, h3]
  simp only [ok_bind, pure_eq]
  rw [show (1 / (f : ℝ)) / 2 = 1 / (2 * f) by rw [div_div, mul_comm]]
  unfold madgStep
  have key : (⟨XR.fin (eulerStep f w q).re - XR.fin (1 / (f : ℝ)) * (XR.fin beta * XR.fin (d 0)),
      XR.fin (eulerStep f w q).imI - XR.fin (1 / (f : ℝ)) * (XR.fin beta * XR.fin (d 1)),
      XR.fin (eulerStep f w q).imJ - XR.fin (1 / (f : ℝ)) * (XR.fin beta * XR.fin (d 2)),
      XR.fin (eulerStep f w q).imK - XR.fin (1 / (f : ℝ)) * (XR.fin beta * XR.fin (d 3))⟩ : Quat XR) =
      quat (eulerStep f w q - ((1 / (f : ℝ)) * beta) • quat4 d) := by
    simp [quat, quat4, mul_assoc]
  rw [← quatToUnit_quat (eulerStep f w q - _), ← key]
  rfl

theorem madgResidual_vec (junk : ℕ → XR) (q : ℍ[ℝ]) (b a : V3) (h : 1e-6 ≤ ‖q‖) :
    madgResidual junk (quat q) (quat (pureQ b)) (vec a []) = ok (mat (Matrix.of fun (i : Fin 3) (_ : Fin 1) => turned q b i - a i) []) := by
  unfold madgResidual
  obtain ⟨r, hr⟩ := quatRot_pure q b (quatJunk junk) h
  obtain ⟨r0, r1, r2⟩ := vec3_rd a []
  rw [r0, r1, r2, hr]
  rfl

theorem madgGrad_mat (junk : ℕ → XR) (J : Matrix (Fin 4) (Fin 3) ℝ) (x : V3) :
    madgGrad junk (mat J []).data (mat (Matrix.of fun (i : Fin 3) (_ : Fin 1) => x i) []) =
      ok ⟨4, 1, (vec (J *ᵥ x) []).data⟩ := by
  unfold madgGrad
  obtain ⟨A, hA⟩ := uninit_eq junk 4 3
  obtain ⟨B, hB⟩ := uninit_eq junk 4 1
  rw [hA, hB, mtx_from_arr_correct _ _ _ (by rw [mat, mtxOf]; simp), ok_bind]
  simp only
  have : mtxOf (Matrix.of fun (i : Fin 4) (j : Fin 3) => (mat J []).data[i.val * 3 + j.val]'(by
      rw [mat, mtxOf]; simp; omega)) [] = mat J [] := by
    refine Eq.trans ?_ (show mtxOf (J.map XR.fin) [] = mat J [] from rfl)
    congr 1
    ext i j
    fin_cases i <;> fin_cases j <;> rfl
  rw [this, mtx_mult_correct, ok_bind]
  simp only [pure_eq]
  congr 1

theorem jacG_data (q : ℍ[ℝ]) : madgJacG (quat q) = (mat (jacG q) []).data := by
  simp [madgJacG, quat, jacG, mat, mtxOf, List.ofFn_succ, Fin.divNat, Fin.modNat]

theorem jacB_data (x z : ℝ) (q : ℍ[ℝ]) : madgJacB (XR.fin x) (XR.fin z) (quat q) = (mat (jacB x z q) []).data := by
  simp [madgJacB, quat, jacB, mat, mtxOf, List.ofFn_succ, Fin.divNat, Fin.modNat]

theorem norm_quat4 (d : Fin 4 → ℝ) : ‖quat4 d‖ ^ 2 = ∑ i, d i ^ 2 := by
  rw [norm_sq_quat, Fin.sum_univ_four]
  simp [quat4]

theorem madgImu_accel (junk : ℕ → XR) {f : ℕ} (hf : 0 < f) (beta : ℝ) (q : ℍ[ℝ]) (hq : 1e-6 ≤ ‖q‖) (a : V3) (m : Option V3)
    (g : V3) (ha : 1e-6 < len a) :
    fusMadgwickImu junk f (XR.fin beta) (Reading.sens ⟨some a, m, g⟩) (quat q) =
      ok (0, Reading.sens ⟨some (unitOf a), m, g⟩,
        quat (madgStep f beta g (unitOf (jacG (direction q) *ᵥ (turned (direction q) up - unitOf a))) (direction q))) := by
  have hu : 1e-6 ≤ ‖direction q‖ := by rw [norm_direction hq]; norm_num
  unfold fusMadgwickImu
  rw [if_neg (by simp [badSize_sensor, Reading.sens]), if_neg (quatIsZero_of_le hq)]
  simp only [Reading.sens]
  rw [quatToUnit_quat, vecUninit_eq, vecInit_vec, ok_bind]
  simp only
  rw [sensValid_some, ok_bind, if_pos (by simpa using ha), unitP_some, ok_bind, quatUp_quat, madgResidual_vec _ _ _ _ hu, ok_bind,
    jacG_data]
  refine Eq.trans (congrArg (fun x => x >>= _) (madgGrad_mat junk (jacG (direction q)) (turned (direction q) up - unitOf a))) ?_
  rw [ok_bind, vec_from_arr_correct _ _ (vec_wf _ _) (by simp [vec, arr])]
  rw [ok_bind]
  simp only
  rw [show (⟨(vec (0 : Fin 4 → ℝ) []).sz, (vec (jacG (direction q) *ᵥ (turned (direction q) up - unitOf a)) []).data.take
      (vec (0 : Fin 4 → ℝ) []).sz ++ (vec (0 : Fin 4 → ℝ) []).data.drop (vec (0 : Fin 4 → ℝ) []).sz⟩ : Vec XR) =
      vec (jacG (direction q) *ᵥ (turned (direction q) up - unitOf a)) [] by simp [vec, arr], vecToUnit_vec, ok_bind]
  simp only
  rw [madgUpdate_vec hf, ok_bind]
  rfl

theorem madgImu_gyro (junk : ℕ → XR) {f : ℕ} (hf : 0 < f) (beta : ℝ) (q : ℍ[ℝ]) (hq : 1e-6 ≤ ‖q‖) (r : Reading)
    (hv : sensValid (sensor r.a) = ok false) :
    fusMadgwickImu junk f (XR.fin beta) r.sens (quat q) = ok (0, r.sens, quat (madgStep f beta r.g 0 (direction q))) := by
  unfold fusMadgwickImu
  rw [if_neg (by simp [badSize_sensor, Reading.sens]), if_neg (quatIsZero_of_le hq)]
  simp only [Reading.sens]
  rw [quatToUnit_quat, vecUninit_eq, vecInit_vec, ok_bind]
  simp only
  rw [hv, ok_bind, if_neg (by simp), madgUpdate_vec hf, ok_bind]
  rfl

theorem madgwick_accel (junk : ℕ → XR) {f : ℕ} (hf : 0 < f) (incl : Option ℝ) (beta : ℝ) (q : ℍ[ℝ]) (hq : 1e-6 ≤ ‖q‖) (a : V3)
    (m : Option V3) (g : V3) (ha : 1e-6 < len a) :
    fusMadgwick junk f (optFin incl) (XR.fin beta) (Reading.sens ⟨some a, m, g⟩) (quat q) =
      ok (0, Reading.sens ⟨some (unitOf a), m.map fun v => if len v < 1e-6 then v else unitOf v, g⟩,
        quat (madgStep f beta g (madgDir incl (direction q) a m) (direction q))) := by
  have hu : 1e-6 ≤ ‖direction q‖ := by rw [norm_direction hq]; norm_num
  unfold fusMadgwick
  rw [if_neg (by simp [badSize_sensor, Reading.sens]), if_neg (quatIsZero_of_le hq)]
  rw [show (Reading.sens ⟨some a, m, g⟩).m = sensor m from rfl, show (Reading.sens ⟨some a, m, g⟩).a = sensor (some a) from rfl,
    show (Reading.sens ⟨some a, m, g⟩).g = vec g [] from rfl]
  cases m with
  | none =>
    rw [sensMissing_none, ok_bind, if_pos rfl, madgImu_accel _ hf _ _ hq _ _ _ ha]
    rfl
  | some m =>
    rw [sensMissing_some, ok_bind]
    by_cases hm : len m < 1e-6
    · rw [if_pos (by simpa using hm), madgImu_accel _ hf _ _ hq _ _ _ ha]
      simp only [madgDir, if_pos hm, Option.map_some]
    · rw [if_neg (by simpa using hm)]
      simp only
      rw [quatToUnit_quat, vecUninit_eq, vecInit_vec, ok_bind]
      simp only
      rw [sensValid_some, ok_bind, if_pos (by simpa using ha), unitP_some, ok_bind, unitP_some, ok_bind, quatUp_quat,
        madgResidual_vec _ _ _ _ hu, ok_bind, jacG_data]
      refine Eq.trans (congrArg (fun x => x >>= _) (madgGrad_mat junk (jacG (direction q)) (turned (direction q) up - unitOf a))) ?_
      rw [ok_bind, quatOfVec_vec, ok_bind, fusEarthField_quat _ _ _ _ hu]
      simp only
      rw [earth_quat, madgResidual_vec _ _ _ _ hu, ok_bind, jacB_data]
      refine Eq.trans (congrArg (fun x => x >>= _) (madgGrad_mat junk _ (turned (direction q) (earthField incl (direction q) (unitOf m)) - unitOf m))) ?_
      rw [ok_bind]
      simp only
      have h0 := fun d : Fin 4 → ℝ => (vec_is d []).rd 0
      have h1 := fun d : Fin 4 → ℝ => (vec_is d []).rd 1
      have h2 := fun d : Fin 4 → ℝ => (vec_is d []).rd 2
      have h3 := fun d : Fin 4 → ℝ => (vec_is d []).rd 3
      simp only [Fin.coe_ofNat_eq_mod, Nat.zero_mod, Nat.one_mod, Nat.mod_succ, Nat.reduceMod] at h0 h1 h2 h3
      simp only [h0, h1, h2, h3, ok_bind, XR.fin_add]
      rw [wr_lt _ (by simp [vec, arr]), ok_bind, wr_lt _ (by simp [vec, arr]), ok_bind, wr_lt _ (by simp [vec, arr]), ok_bind,
        wr_lt _ (by simp [vec, arr]), ok_bind]
      have hv : ∀ x y : Fin 4 → ℝ, ({ vec (0 : Fin 4 → ℝ) [] with
          data := ((((vec (0 : Fin 4 → ℝ) []).data.set 0 (XR.fin (x 0 + y 0))).set 1 (XR.fin (x 1 + y 1))).set 2
            (XR.fin (x 2 + y 2))).set 3 (XR.fin (x 3 + y 3)) } : Vec XR) = vec (x + y) [] := by
        intro x y
        simp [vec, arr, List.ofFn_succ]
      rw [hv, vecToUnit_vec, ok_bind]
      simp only
      rw [madgUpdate_vec hf, ok_bind]
      simp only [madgDir, if_neg hm, Option.map_some]
      rfl

theorem madgwick_gyro (junk : ℕ → XR) {f : ℕ} (hf : 0 < f) (incl : Option ℝ) (beta : ℝ) (q : ℍ[ℝ]) (hq : 1e-6 ≤ ‖q‖) (r : Reading)
    (hv : sensValid (sensor r.a) = ok false) :
    fusMadgwick junk f (optFin incl) (XR.fin beta) r.sens (quat q) = ok (0, r.sens, quat (madgStep f beta r.g 0 (direction q))) := by
  unfold fusMadgwick
  rw [if_neg (by simp [badSize_sensor, Reading.sens]), if_neg (quatIsZero_of_le hq)]
  obtain ⟨ra, rm, rg⟩ := r
  cases rm with
  | none =>
    rw [show (Reading.sens ⟨ra, none, rg⟩).m = sensor none from rfl, sensMissing_none, ok_bind, if_pos rfl, madgImu_gyro _ hf _ _ hq _ hv]
  | some m =>
    rw [show (Reading.sens ⟨ra, some m, rg⟩).m = sensor (some m) from rfl, sensMissing_some, ok_bind]
    by_cases h : len m < 1e-6
    · rw [if_pos (by simpa using h), madgImu_gyro _ hf _ _ hq _ hv]
    · rw [if_neg (by simpa using h)]
      simp only
      rw [quatToUnit_quat, vecUninit_eq, vecInit_vec, ok_bind]
      simp only
      rw [show (Reading.sens ⟨ra, some m, rg⟩).a = sensor ra from rfl, hv, ok_bind, if_neg (by simp)]
      rw [show (Reading.sens ⟨ra, some m, rg⟩).g = vec rg [] from rfl, madgUpdate_vec hf, ok_bind]
      rfl

/-- C63. What one accepted feed of the Madgwick filter does when the accelerometer gives more than `1e-6`. -/
theorem madg_feed_correct (junk : ℕ → XR) {f : ℕ} (hf : 0 < f) (incl : Option ℝ) (beta : ℝ) (hb : 0 ≤ beta) (q : ℍ[ℝ]) (hq : 1e-6 ≤ ‖q‖)
    (a : V3) (m : Option V3) (g : V3) (ha : 1e-6 < len a) :
    fusMadgFeed junk f (optFin incl) (XR.fin beta) (Reading.sens ⟨some a, m, g⟩) (quat q) =
      ok (0, Reading.sens ⟨some (unitOf a), m.map fun v => if len v < 1e-6 then v else unitOf v, g⟩,
        quat (madgStep f beta g (madgDir incl (direction q) a m) (direction q))) := by
  unfold fusMadgFeed
  rw [if_neg (by simpa using hb), madgwick_accel _ hf _ _ _ hq _ _ _ ha]

example : ∃ s' q', fusMadgFeed (fun _ => XR.nan) 100 (optFin (some 60)) (XR.fin 0.1) (Reading.sens ⟨some ![1, 2, 9], some ![3, 4, 5], ![1, 1, 1]⟩) (quat 1) =
    ok (0, s', quat q') :=
  ⟨_, _, madg_feed_correct _ (by norm_num) _ _ (by norm_num) 1 (by norm_num) _ _ _ (lt_len (by simp; norm_num))⟩

/-- C63. Without an accelerometer reading above `1e-6` the Madgwick feed only advances the attitude with the gyroscope's rate. -/
theorem madg_feed_gyro (junk : ℕ → XR) {f : ℕ} (hf : 0 < f) (incl : Option ℝ) (beta : ℝ) (hb : 0 ≤ beta) (q : ℍ[ℝ]) (hq : 1e-6 ≤ ‖q‖)
    (r : Reading) (ha : ∀ a, r.a = some a → len a ≤ 1e-6) :
    fusMadgFeed junk f (optFin incl) (XR.fin beta) r.sens (quat q) = ok (0, r.sens, quat (eulerStep f r.g q)) := by
  have hv : sensValid (sensor r.a) = ok false := by
    cases h : r.a with
    | none => rfl
    | some a => rw [sensValid_some]; simpa using ha a h
  unfold fusMadgFeed
  rw [if_neg (by simpa using hb), madgwick_gyro _ hf _ _ _ hq _ hv]
  have : quat4 0 = 0 := by ext <;> simp [quat4]
  unfold madgStep eulerStep
  rw [this, smul_zero, sub_zero, direction_direction, direction_direction]

/-- C65. The Madgwick feed rejects a negative gain, a sensor vector that is not three-dimensional and an attitude shorter than `1e-6`;
then nothing is changed. For every scalar type. -/
theorem madg_feed_rejects {R : Type} [CReal R] (junk : ℕ → R) (f : ℕ) (incl : Option R) (beta : R) (s : Sens R) (q : Quat R)
    (h : CReal.lt beta (lit 0) = true ∨ (∃ a, s.a = some a ∧ a.sz ≠ 3) ∨ (∃ m, s.m = some m ∧ m.sz ≠ 3) ∨ s.g.sz ≠ 3 ∨
      CReal.lt (CReal.abs (quatMagn q)) (lit 1e-6) = true) :
    fusMadgFeed junk f incl beta s q = ok (-EINVAL, s, q) := by
  unfold fusMadgFeed
  by_cases h1 : CReal.lt beta (lit 0) = true
  · rw [if_pos h1]
  · rw [if_neg h1]
    unfold fusMadgwick
    by_cases h2 : badSize s.a = true ∨ badSize s.m = true ∨ s.g.sz ≠ 3
    · rw [if_pos h2]
    · rw [if_neg h2]
      push Not at h2
      obtain ⟨b1, b2, b3⟩ := h2
      rw [if_pos ?_]
      · rcases h with h | ⟨a, ha, hs⟩ | ⟨m, hm, hs⟩ | h | h
        · exact absurd h h1
        · rw [ha] at b1; simp [badSize, hs] at b1
        · rw [hm] at b2; simp [badSize, hs] at b2
        · exact absurd b3 h
        · exact h

/-- One call of the Madgwick feed. -/
structure MadgCall where
  freq : ℕ
  pos : 0 < freq
  incl : Option ℝ
  reading : Reading
  beta : ℝ

/-- The feed as a transition of the attitude. -/
noncomputable def madgCall (junk : ℕ → XR) (i : MadgCall) (q : Quat XR) : Out (Int × Quat XR) := do
  let (rc, _, q) ← fusMadgFeed junk i.freq (optFin i.incl) (XR.fin i.beta) i.reading.sens q
  return (rc, q)

theorem norm_quat4_unitOf (x : Fin 4 → ℝ) : ‖quat4 (unitOf x)‖ = 1 := by
  have h := norm_quat4 (unitOf x)
  rw [unitOf_norm] at h
  have := norm_nonneg (quat4 (unitOf x))
  nlinarith

theorem norm_quat4_madgDir (incl : Option ℝ) (u : ℍ[ℝ]) (a : V3) (m : Option V3) : ‖quat4 (madgDir incl u a m)‖ = 1 := by
  unfold madgDir
  cases m with
  | none => exact norm_quat4_unitOf _
  | some m =>
    simp only
    split_ifs <;> exact norm_quat4_unitOf _

theorem madgCall_cases (junk : ℕ → XR) (i : MadgCall) (q : ℍ[ℝ]) :
    ∃ rc q', madgCall junk i (quat q) = ok (rc, quat q') ∧
      ((rc = 0 ∧ 0 ≤ i.beta ∧ 1e-6 ≤ ‖q‖ ∧ ∃ x d : ℍ[ℝ], ‖x‖ = 1 ∧ ‖d‖ ≤ 1 ∧ q' = direction (x - ((1 / (i.freq : ℝ)) * i.beta) • d)) ∨
        (rc = -EINVAL ∧ (i.beta < 0 ∨ ‖q‖ < 1e-6) ∧ q' = q)) := by
  by_cases h : 0 ≤ i.beta ∧ 1e-6 ≤ ‖q‖
  · obtain ⟨hb, hq⟩ := h
    have hu : 1e-6 ≤ ‖direction q‖ := by rw [norm_direction hq]; norm_num
    by_cases ha : ∃ a, i.reading.a = some a ∧ 1e-6 < len a
    · obtain ⟨a, ha, hl⟩ := ha
      have := madg_feed_correct junk i.pos i.incl i.beta hb q hq a i.reading.m i.reading.g hl
      rw [← ha] at this
      refine ⟨0, madgStep i.freq i.beta i.reading.g (madgDir i.incl (direction q) a i.reading.m) (direction q), ?_,
        Or.inl ⟨rfl, hb, hq, eulerStep i.freq i.reading.g (direction q), quat4 (madgDir i.incl (direction q) a i.reading.m),
          norm_eulerStep _ _ hu, (norm_quat4_madgDir _ _ _ _).le, rfl⟩⟩
      unfold madgCall
      refine Eq.trans (congrArg (fun x => x >>= _) this) ?_
      rfl
    · push Not at ha
      have := madg_feed_gyro junk i.pos i.incl i.beta hb q hq i.reading ha
      refine ⟨0, eulerStep i.freq i.reading.g q, ?_,
        Or.inl ⟨rfl, hb, hq, eulerStep i.freq i.reading.g q, 0, norm_eulerStep _ _ hq, by simp, ?_⟩⟩
      · unfold madgCall
        refine Eq.trans (congrArg (fun x => x >>= _) this) ?_
        rfl
      · rw [smul_zero, sub_zero, direction_of_norm_one (norm_eulerStep _ _ hq)]
  · have h' : i.beta < 0 ∨ ‖q‖ < 1e-6 := by
      by_contra hc
      push Not at hc
      exact h hc
    refine ⟨-EINVAL, q, ?_, Or.inr ⟨rfl, h', rfl⟩⟩
    have := madg_feed_rejects junk i.freq (optFin i.incl) (XR.fin i.beta) i.reading.sens (quat q) (by
      rcases h' with h' | h'
      · exact Or.inl (by simpa using h')
      · refine Or.inr (Or.inr (Or.inr (Or.inr ?_)))
        have h2 := quatIsZero_quat q
        unfold quatIsZero at h2
        rw [h2]
        simpa using h')
    unfold madgCall
    refine Eq.trans (congrArg (fun x => x >>= _) this) ?_
    rfl

/-- C63. Over every history of calls of the Madgwick feed no call has undefined behaviour, and after each the attitude is a unit
quaternion or zero (code 0) or what it was before (`-EINVAL`). Zero does happen, see
`madg_zero_attitude`. -/
theorem madg_history_unit (junk : ℕ → XR) (calls : List MadgCall) (q : ℍ[ℝ]) :
    ∃ t : List (Int × ℍ[ℝ]),
      trace (madgCall junk) calls (quat q) = ok (t.map fun x => (x.1, quat x.2)) ∧ t.length = calls.length ∧
      List.IsChain (fun x y => (y.1 = 0 ∧ (‖y.2‖ = 1 ∨ y.2 = 0)) ∨ (y.1 = -EINVAL ∧ y.2 = x.2)) ((0, q) :: t) := by
  refine trace_chain quat (madgCall junk) (fun x y => (y.1 = 0 ∧ (‖y.2‖ = 1 ∨ y.2 = 0)) ∨ (y.1 = -EINVAL ∧ y.2 = x)) ?_ calls q 0
  intro i q
  obtain ⟨rc, q', h1, h2⟩ := madgCall_cases junk i q
  refine ⟨rc, q', h1, ?_⟩
  rcases h2 with ⟨h, _, _, x, d, _, _, hq'⟩ | ⟨h, _, h'⟩
  · refine Or.inl ⟨h, ?_⟩
    rw [hq']
    exact norm_direction_cases _
  · exact Or.inr ⟨h, h'⟩

/-- C63. Once started with an attitude of magnitude at least `1e-6`, and with a gain below the sample frequency, the Madgwick filter
accepts every reading and the attitude is a unit quaternion after each. -/
theorem madg_history_accepts (junk : ℕ → XR) (calls : List MadgCall) (hc : ∀ i ∈ calls, 0 ≤ i.beta ∧ i.beta ≤ 0.999999 * i.freq)
    (q : ℍ[ℝ]) (hq : 1e-6 ≤ ‖q‖) :
    ∃ t : List (Int × ℍ[ℝ]),
      trace (madgCall junk) calls (quat q) = ok (t.map fun x => (x.1, quat x.2)) ∧ t.length = calls.length ∧
      ∀ y ∈ t, y.1 = 0 ∧ ‖y.2‖ = 1 := by
  induction calls generalizing q with
  | nil => exact ⟨[], rfl, rfl, by simp⟩
  | cons i l ih =>
    obtain ⟨hb, hf⟩ := hc i (by simp)
    obtain ⟨rc, q', h1, h2⟩ := madgCall_cases junk i q
    have h3 : rc = 0 ∧ ‖q'‖ = 1 := by
      rcases h2 with ⟨h, _, _, x, d, hx, hd, rfl⟩ | ⟨_, h, _⟩
      · refine ⟨h, norm_direction ?_⟩
        have hpos : (0 : ℝ) < i.freq := by exact_mod_cast i.pos
        have hs : (1 / (i.freq : ℝ)) * i.beta ≤ 0.999999 := by
          rw [one_div, inv_mul_le_iff₀ hpos]; linarith
        have hs0 : 0 ≤ (1 / (i.freq : ℝ)) * i.beta := by positivity
        have h4 := norm_sub_norm_le x (((1 / (i.freq : ℝ)) * i.beta) • d)
        rw [norm_smul, Real.norm_of_nonneg hs0, hx] at h4
        nlinarith [norm_nonneg d]
      · rcases h with h | h <;> linarith
    obtain ⟨t, t1, t2, t3⟩ := ih (fun j hj => hc j (by simp [hj])) q' (by rw [h3.2]; norm_num)
    refine ⟨(rc, q') :: t, ?_, by simp [t2], ?_⟩
    · unfold trace
      rw [h1, ok_bind]
      simp only
      rw [t1]
      rfl
    · intro y hy
      rcases List.mem_cons.1 hy with rfl | hy
      · exact h3
      · exact t3 y hy

example (n : ℕ) : ∃ t : List (Int × ℍ[ℝ]),
    trace (madgCall (fun _ => XR.nan)) (List.replicate n ⟨100, by norm_num, none, ⟨some ![1, 2, 9], none, ![1, 1, 1]⟩, 0.1⟩) (quat 1) =
      ok (t.map fun x => (x.1, quat x.2)) ∧ t.length = n ∧ ∀ y ∈ t, y.1 = 0 ∧ ‖y.2‖ = 1 := by
  have := madg_history_accepts (fun _ => XR.nan) (List.replicate n ⟨100, by norm_num, none, ⟨some ![1, 2, 9], none, ![1, 1, 1]⟩, 0.1⟩)
    (by intro i hi; rw [List.eq_of_mem_replicate hi]; norm_num) 1 (by norm_num)
  rwa [List.length_replicate] at this

theorem turned_one (v : V3) : turned 1 v = v := by
  have h1 : direction (1 : ℍ[ℝ]) = 1 := direction_of_norm_one (by simp)
  unfold turned
  rw [h1, one_mul, inv_one, mul_one]
  ext i
  fin_cases i <;> simp [pureQ]

theorem len_up : len up = 1 := by
  simp [len, up, dotProduct, Fin.sum_univ_three]

theorem unitOf_of_len {v : V3} (h : len v = 1) : unitOf v = v := by
  have h0 : v ≠ 0 := by
    rintro rfl
    simp [len] at h
  unfold unitOf
  rw [if_neg h0]
  unfold len at h
  rw [h]
  simp

/-- C63. The claim fails for the Madgwick filter: with the gain equal to the sample frequency (or both 1), resting and perfectly
level, the accepted feed leaves the zero quaternion. -/
theorem madg_zero_attitude (junk : ℕ → XR) {f : ℕ} (hf : 0 < f) :
    fusMadgFeed junk f none (XR.fin f) (Reading.sens ⟨some up, none, 0⟩) (quat 1) =
      ok (0, Reading.sens ⟨some up, none, 0⟩, quat 0) := by
  have h1 : direction (1 : ℍ[ℝ]) = 1 := direction_of_norm_one (by simp)
  have hpos : (0 : ℝ) < f := by exact_mod_cast hf
  have := madg_feed_correct junk hf none f hpos.le 1 (by norm_num) up none 0 (by rw [len_up]; norm_num)
  refine this.trans ?_
  rw [unitOf_of_len len_up, h1]
  have hd : madgDir none 1 up none = Pi.single 0 1 := by
    unfold madgDir
    simp only
    rw [turned_one, unitOf_of_len len_up, sub_self, mulVec_zero]
    unfold unitOf
    rw [if_pos rfl]
  have h4 : quat4 (Pi.single 0 1) = 1 := by
    ext <;> simp [quat4]
  have he : eulerStep f 0 1 = 1 := by
    have : pureQ 0 = 0 := by ext <;> simp [pureQ]
    unfold eulerStep
    rw [this, smul_zero, add_zero, one_mul, h1, h1]
  have hz : madgStep f f 0 (madgDir none 1 up none) 1 = 0 := by
    unfold madgStep
    rw [hd, h4, he, one_div, inv_mul_cancel₀ hpos.ne', one_smul, sub_self]
    unfold direction
    rw [if_pos (by norm_num)]
  rw [hz]
  rfl

/-- C63. And from then on every feed, whatever the readings, is rejected: the filter never recovers. -/
theorem madg_zero_stuck (junk : ℕ → XR) (calls : List MadgCall) :
    trace (madgCall junk) calls (quat 0) = ok (List.replicate calls.length (-EINVAL, quat 0)) := by
  induction calls with
  | nil => rfl
  | cons i l ih =>
    have h : madgCall junk i (quat 0) = ok (-EINVAL, quat 0) := by
      obtain ⟨rc, q', h1, ⟨_, _, h, _⟩ | ⟨rfl, _, rfl⟩⟩ := madgCall_cases junk i 0
      · norm_num at h
      · exact h1
    unfold trace
    rw [h, ok_bind]
    simp only
    rw [ih]
    rfl

end Verif
