import Mathlib.Algebra.Order.Star.Real
import Verif.Props.Kalman2

/-!
# The extended Kalman filter: the covariance (C113) and readings which agree with the attitude (C114)
-/

namespace Verif

open Quaternion Matrix Out

/-! ## The covariance -/

theorem KalmIn.noise_posSemidef (x : KalmIn) (hA : 0 ≤ x.varA) (hM : 0 ≤ x.varM) : x.noise.PosSemidef := by
  refine Matrix.PosSemidef.diagonal fun i => ?_
  fin_cases i <;> simp [hA, hM]

theorem KalmIn.prior_posSemidef (x : KalmIn) (hG : 0 ≤ x.varG) (q : ℍ[ℝ]) {P : Matrix (Fin 4) (Fin 4) ℝ} (hP : P.PosSemidef) :
    (x.prior q P).PosSemidef := by
  unfold KalmIn.prior
  refine Matrix.PosSemidef.add ?_ (Matrix.PosSemidef.smul ?_ (by positivity))
  · have := hP.mul_mul_conjTranspose_same (rightMul (1 + (1 / (2 * (x.freq : ℝ))) • pureQ x.g))
    rwa [Matrix.conjTranspose_eq_transpose_of_trivial] at this
  · have := Matrix.posSemidef_self_mul_conjTranspose (rateMap q)
    rwa [Matrix.conjTranspose_eq_transpose_of_trivial] at this

theorem kalm_joseph {P : Matrix (Fin 4) (Fin 4) ℝ} {H : Matrix (Fin 6) (Fin 4) ℝ} {R C : Matrix (Fin 6) (Fin 6) ℝ}
    (hP : P.PosSemidef) (hR : R.PosSemidef) (hC : C * (H * P * Hᵀ + R) = 1) :
    ((1 - P * Hᵀ * C * H) * P).PosSemidef ∧ (P - (1 - P * Hᵀ * C * H) * P).PosSemidef := by
  have hPt : Pᵀ = P := by have := hP.1; rwa [Matrix.IsHermitian, Matrix.conjTranspose_eq_transpose_of_trivial] at this
  have hRt : Rᵀ = R := by have := hR.1; rwa [Matrix.IsHermitian, Matrix.conjTranspose_eq_transpose_of_trivial] at this
  set S := H * P * Hᵀ + R with hS
  have hSt : Sᵀ = S := by
    rw [hS, Matrix.transpose_add, Matrix.transpose_mul, Matrix.transpose_mul, Matrix.transpose_transpose, hPt, hRt, Matrix.mul_assoc]
  have hC' : S * C = 1 := mul_eq_one_comm.1 hC
  have hCt : Cᵀ = C := by
    have h1 : Cᵀ * S = 1 := by rw [← Matrix.transpose_transpose S, ← Matrix.transpose_mul, hSt, hC', Matrix.transpose_one]
    calc Cᵀ = Cᵀ * (S * C) := by rw [hC', Matrix.mul_one]
      _ = C := by rw [← Matrix.mul_assoc, h1, Matrix.one_mul]
  set K := P * Hᵀ * C with hK
  have hKt : Kᵀ = C * H * P := by
    rw [hK, Matrix.transpose_mul, Matrix.transpose_mul, Matrix.transpose_transpose, hPt, hCt, Matrix.mul_assoc]
  have hKS : K * S = P * Hᵀ := by rw [hK, Matrix.mul_assoc, hC, Matrix.mul_one]
  have hKSK : K * S * Kᵀ = K * H * P := by
    rw [hKS, hKt, hK]
    simp only [Matrix.mul_assoc]
  have hKR : K * (H * P * Hᵀ) * Kᵀ + K * R * Kᵀ = K * H * P := by rw [← Matrix.add_mul, ← Matrix.mul_add, ← hS, hKSK]
  have hPHK : P * Hᵀ * Kᵀ = K * H * P := by rw [← hKS, hKSK]
  constructor
  · have e : (1 - K * H) * P = (1 - K * H) * P * (1 - K * H)ᵀ + K * R * Kᵀ := by
      have : (1 - K * H) * P * (1 - K * H)ᵀ = P - K * H * P - P * Hᵀ * Kᵀ + K * (H * P * Hᵀ) * Kᵀ := by
        rw [Matrix.transpose_sub, Matrix.transpose_one, Matrix.transpose_mul, Matrix.mul_sub, Matrix.sub_mul, Matrix.mul_one, Matrix.sub_mul, Matrix.one_mul]
        simp only [Matrix.mul_assoc]
        abel
      rw [this, hPHK, add_assoc, hKR, Matrix.sub_mul, Matrix.one_mul]
      abel
    rw [e]
    refine Matrix.PosSemidef.add ?_ ?_
    · have := hP.mul_mul_conjTranspose_same (1 - K * H)
      rwa [Matrix.conjTranspose_eq_transpose_of_trivial] at this
    · have := hR.mul_mul_conjTranspose_same K
      rwa [Matrix.conjTranspose_eq_transpose_of_trivial] at this
  · have e : P - (1 - K * H) * P = K * S * Kᵀ := by
      rw [hKSK, Matrix.sub_mul, Matrix.one_mul]
      abel
    rw [e]
    have hSP : S.PosSemidef := by
      rw [hS]
      refine Matrix.PosSemidef.add ?_ hR
      have := hP.mul_mul_conjTranspose_same H
      rwa [Matrix.conjTranspose_eq_transpose_of_trivial] at this
    have := hSP.mul_mul_conjTranspose_same K
    rwa [Matrix.conjTranspose_eq_transpose_of_trivial] at this

/-- C113, part: the covariance a call stores is symmetric and positive semidefinite if the one before was, and a measurement never increases
it. Missing: this supposes that the inversion of `S` is exact, which depends on the sizes of its entries (C26). -/
theorem kalm_covariance_partial (junk : ℕ → XR) (x : KalmIn) (hx : x.Good) {P : Matrix (Fin 4) (Fin 4) ℝ} (hP : P.PosSemidef) (t : List XR) (q : ℍ[ℝ])
    (hC : ∀ C, mtxInv junk (mat (x.S q P) []) (Mtx.uninit junk 6 6) = ok (0, mat C []) → C * x.S q P = 1) :
    ∃ P' q', fusKalmFeed junk x.freq (optFin x.incl) x.sens (x.cfg P t) (quat q) true = ok (0, x.after.sens, x.cfg P' t, quat q', true) ∧
      P'.PosSemidef ∧ (x.prior q P).PosSemidef ∧ (x.prior q P - P').PosSemidef := by
  obtain ⟨C, h1, h2⟩ := kalm_feed_correct junk x hx.freq hx.varG hx.varA hx.varM P t q
  have hp := x.prior_posSemidef hx.varG q hP
  obtain ⟨h3, h4⟩ := kalm_joseph hp (x.noise_posSemidef hx.varA hx.varM) (hC C h1)
  exact ⟨_, _, h2, h3, hp, h4⟩

/-- With positive variances `S` has an inverse. -/
theorem kalm_S_posDef (x : KalmIn) (hG : 0 ≤ x.varG) (hA : 0 < x.varA) (hM : 0 < x.varM) (q : ℍ[ℝ]) {P : Matrix (Fin 4) (Fin 4) ℝ} (hP : P.PosSemidef) :
    (x.S q P).PosDef := by
  unfold KalmIn.S
  refine Matrix.PosDef.posSemidef_add ?_ ?_
  · have := (x.prior_posSemidef hG q hP).mul_mul_conjTranspose_same (x.H q)
    rwa [Matrix.conjTranspose_eq_transpose_of_trivial] at this
  · refine Matrix.PosDef.diagonal fun i => ?_
    fin_cases i <;> simp [hA, hM]

/-! ## Readings which agree with the attitude -/

/-- The attitude of the witness: a turn about the first axis. -/
noncomputable def tiltQ : ℍ[ℝ] := hq (4 / 5) (3 / 5) 0 0

theorem norm_tiltQ : ‖tiltQ‖ = 1 := by
  have h : ‖tiltQ‖ ^ 2 = 1 := by
    rw [norm_sq_quat]
    simp [tiltQ]
    norm_num
  nlinarith [norm_nonneg tiltQ]

/-- The readings of the witness: no rotation, level field along the first axis, unit variances, and the acceleration `a`. -/
noncomputable def tiltIn (a : V3) : KalmIn := ⟨100, some 0, 0, 1, 1, a, ![1, 0, 0], 0⟩

/-- The covariance of the witness. -/
noncomputable def tiltP : Matrix (Fin 4) (Fin 4) ℝ := (25 / 4 : ℝ) • 1

/-- The innovation covariance of the witness. -/
def tiltS : Matrix (Fin 6) (Fin 6) ℤ :=
  !![26, 0, 0, 0, 24, 7; 0, 26, -24, 0, 0, 0; 0, -24, 37, 0, 0, 0; 0, 0, 0, 1, 0, 0; 24, 0, 0, 0, 26, 0; 7, 0, 0, 0, 0, 26]

theorem tilt_good (a : V3) : (tiltIn a).Good := ⟨by simp [tiltIn], by simp [tiltIn], by simp [tiltIn], by simp [tiltIn]⟩

theorem tilt_att (a : V3) : (tiltIn a).att tiltQ = tiltQ := by
  have h : pureQ (0 : V3) = 0 := by ext <;> simp [pureQ]
  simp only [KalmIn.att, eulerStep, tiltIn]
  rw [h, smul_zero, add_zero, one_mul, direction_direction, direction_of_norm_one norm_tiltQ]

theorem rightMul_one : rightMul 1 = 1 := by
  ext i j
  fin_cases i <;> fin_cases j <;> simp [rightMul, coords, ofCoords, Pi.single_apply]

theorem tilt_prior (a : V3) : (tiltIn a).prior tiltQ tiltP = tiltP := by
  have h : pureQ (0 : V3) = 0 := by ext <;> simp [pureQ]
  simp only [KalmIn.prior, tiltIn]
  rw [h, smul_zero, add_zero, rightMul_one]
  simp

theorem tilt_field (a : V3) : (tiltIn a).field tiltQ = ![1, 0, 0] := by
  have h : earthField (tiltIn a).incl ((tiltIn a).att tiltQ) (unitOf (tiltIn a).m) = ![1, 0, 0] := by
    simp [tiltIn, earthField]
  rw [KalmIn.field, h, KalmIn.unit3]
  have hl : len ![1, 0, 0] = 1 := by simp [len]
  rw [hl, if_neg (by norm_num)]
  simp

theorem tilt_H (a : V3) : (tiltIn a).H tiltQ =
    !![0, 0, 8 / 5, -6 / 5; -6 / 5, -8 / 5, 0, 0; 0, 12 / 5, 0, 0; 0, 0, 0, 0; 0, 0, 6 / 5, -8 / 5; 0, 0, 8 / 5, 6 / 5] := by
  rw [KalmIn.H, tilt_field, tilt_att]
  ext i j
  fin_cases i <;> fin_cases j <;> simp [KalmIn.jac, tiltQ] <;> norm_num

theorem tilt_S (a : V3) : (tiltIn a).S tiltQ tiltP = tiltS.map (Int.cast : ℤ → ℝ) := by
  rw [KalmIn.S, tilt_prior, tilt_H, KalmIn.noise, tiltP, Matrix.mul_smul, Matrix.mul_one, Matrix.smul_mul]
  ext i j
  rw [Matrix.add_apply, Matrix.smul_apply, Matrix.mul_apply, Fin.sum_univ_four]
  simp only [Matrix.transpose_apply, Matrix.map_apply]
  fin_cases i <;> fin_cases j <;> simp [tiltS, tiltIn] <;> norm_num

theorem tilt_minors : ∀ k (hk : k ≤ 6), (tiltS.submatrix (Fin.castLE hk) (Fin.castLE hk)).det ≠ 0 ∧
    |(tiltS.submatrix (Fin.castLE hk) (Fin.castLE hk)).det| ≤ 1000000 := by
  intro k hk
  interval_cases k <;> revert hk <;> decide +kernel

/-- The inversion is exact for the witness. -/
theorem tilt_inv (junk : ℕ → XR) (a : V3) (C : Matrix (Fin 6) (Fin 6) ℝ)
    (h : mtxInv junk (mat ((tiltIn a).S tiltQ tiltP) []) (Mtx.uninit junk 6 6) = ok (0, mat C [])) :
    C * (tiltIn a).S tiltQ tiltP = 1 := by
  obtain ⟨D, h1, -, h2⟩ := mtx_inv_minors_partial junk tiltS 0 [] [] (by omega) tilt_minors
  rw [mtxInv_uninit_eq junk _ 0 (by omega) (by omega), tilt_S, h1] at h
  have hCD : D = C := by
    have := congrArg (fun o : Out (Int × Mtx XR) => match o with | ok x => x.2 | ub => mat D []) h
    have := (mtxOf_inj this).1
    ext i j
    have := congrFun (congrFun this i) j
    simpa using this
  rw [tilt_S, ← hCD, h2]

theorem tilt_turned : turned tiltQ down = ![0, 24 / 25, -7 / 25] ∧ turned tiltQ ![1, 0, 0] = ![1, 0, 0] ∧ seenBy tiltQ down = ![0, -24 / 25, -7 / 25] := by
  have hi : tiltQ⁻¹ = star tiltQ := by
    have : tiltQ * star tiltQ = 1 := by rw [Quaternion.self_mul_star, Quaternion.normSq_eq_norm_mul_self, norm_tiltQ]; simp
    exact inv_eq_of_mul_eq_one_right this
  refine ⟨?_, ?_, ?_⟩
  · rw [turned, direction_of_norm_one norm_tiltQ, hi]
    ext i
    fin_cases i <;> simp [tiltQ, pureQ, down] <;> norm_num
  · rw [turned, direction_of_norm_one norm_tiltQ, hi]
    ext i
    fin_cases i
    · simp [tiltQ, pureQ]
      norm_num
    · simp [tiltQ, pureQ]
    · simp [tiltQ, pureQ]
  · ext i
    fin_cases i <;> simp [seenBy, tiltQ, down] <;> norm_num

theorem unitOf_unit {v : V3} (h : v ⬝ᵥ v = 1) : unitOf v = v := by
  have h0 : v ≠ 0 := by rintro rfl; simp at h
  rw [unitOf_ne h0, h]
  simp

/-- What the correction adds, for the acceleration `(0, y, -7/25)`. -/
theorem tilt_correction (junk : ℕ → XR) (y : ℝ) (hy : y * y = (24 / 25) * (24 / 25)) (C : Matrix (Fin 6) (Fin 6) ℝ)
    (h : mtxInv junk (mat ((tiltIn ![0, y, -7 / 25]).S tiltQ tiltP) []) (Mtx.uninit junk 6 6) = ok (0, mat C [])) :
    (tiltIn ![0, y, -7 / 25]).gain tiltQ tiltP C *ᵥ (tiltIn ![0, y, -7 / 25]).innov tiltQ =
      ![-(15 / 2) * ((37 * (y - 48 / 25) + 24 * (7 / 25)) / 386),
        -10 * ((37 * (y - 48 / 25) + 24 * (7 / 25)) / 386) + 15 * ((24 * (y - 48 / 25) + 26 * (7 / 25)) / 386), 0, 0] := by
  have hC := tilt_inv junk _ C h
  have hin : (tiltIn ![0, y, -7 / 25]).innov tiltQ = ![0, y - 48 / 25, 7 / 25, -1, 0, 0] := by
    rw [KalmIn.innov, tilt_att, tilt_field, tilt_turned.1, tilt_turned.2.1]
    simp only [tiltIn]
    rw [unitOf_unit (by simp; linarith), unitOf_unit (by simp)]
    ext i
    fin_cases i <;> simp [stack] <;> norm_num
  have hw : (tiltIn ![0, y, -7 / 25]).S tiltQ tiltP *ᵥ ![0, (37 * (y - 48 / 25) + 24 * (7 / 25)) / 386, (24 * (y - 48 / 25) + 26 * (7 / 25)) / 386, -1, 0, 0]
      = ![0, y - 48 / 25, 7 / 25, -1, 0, 0] := by
    rw [tilt_S]
    ext i
    simp only [Matrix.mulVec, dotProduct, Fin.sum_univ_six, Matrix.map_apply]
    fin_cases i <;> simp [tiltS] <;> ring
  have hCv : C *ᵥ ![0, y - 48 / 25, 7 / 25, -1, 0, 0] =
      ![0, (37 * (y - 48 / 25) + 24 * (7 / 25)) / 386, (24 * (y - 48 / 25) + 26 * (7 / 25)) / 386, -1, 0, 0] := by
    rw [← hw, Matrix.mulVec_mulVec, hC, Matrix.one_mulVec]
  rw [KalmIn.gain, hin, ← Matrix.mulVec_mulVec, hCv, tilt_prior, tilt_H, tiltP, Matrix.smul_mul, Matrix.one_mul]
  ext i
  simp only [Matrix.mulVec, dotProduct, Fin.sum_univ_six, Matrix.smul_apply, Matrix.transpose_apply]
  fin_cases i <;> simp <;> ring

theorem tilt_moved {r i : ℝ} (hr1 : 1 ≤ r) (hne : 3 / 5 * r ≠ 4 / 5 * i) :
    ‖direction (hq r i 0 0)‖ = 1 ∧ direction (hq r i 0 0) ≠ tiltQ ∧ direction (hq r i 0 0) ≠ -tiltQ := by
  have hn : 1 ≤ ‖hq r i 0 0‖ := by
    have h3 : ‖hq r i 0 0‖ ^ 2 = r ^ 2 + i ^ 2 := by rw [norm_sq_quat]; simp
    nlinarith [norm_nonneg (hq r i 0 0), sq_nonneg i]
  have hn' : 1e-6 ≤ ‖hq r i 0 0‖ := by linarith [show (1e-6 : ℝ) ≤ 1 by norm_num]
  have hc : ∀ s : ℝ, direction (hq r i 0 0) ≠ s • tiltQ := by
    intro s h
    rw [direction, if_neg (not_lt.2 hn')] at h
    have e1 := congrArg (fun z : ℍ[ℝ] => z.re) h
    have e2 := congrArg (fun z : ℍ[ℝ] => z.imI) h
    simp only [Quaternion.re_smul, Quaternion.imI_smul, hq_re, hq_imI, tiltQ, smul_eq_mul] at e1 e2
    have hp : 0 < ‖hq r i 0 0‖ := by linarith
    exact hne (mul_left_cancel₀ (inv_ne_zero hp.ne') (by linear_combination (3 / 5) * e1 - (4 / 5) * e2))
  refine ⟨norm_direction hn', fun h => hc 1 (by rw [h, one_smul]), fun h => hc (-1) (by rw [h, neg_one_smul])⟩

/-- C114, negation: readings which are exactly what the attitude predicts move the attitude. Here the attitude is a turn by 74 degrees about the
first axis, the device does not rotate, the field is level, and the accelerometer reports the direction of gravity in the frame of the device,
whether the attitude takes the device to the earth (`turned`, as in the filter's prediction) or the earth to the device (`seenBy`, as
in its Jacobian). The cause is that the prediction is doubled. -/
theorem kalm_agreeing_readings (junk : ℕ → XR) (t : List XR) (a : V3) (ha : a = turned tiltQ down ∨ a = seenBy tiltQ down) :
    ∃ P' q', fusKalmFeed junk 100 (some (XR.fin 0)) (tiltIn a).sens ((tiltIn a).cfg tiltP t) (quat tiltQ) true =
        ok (0, (tiltIn a).sens, (tiltIn a).cfg P' t, quat q', true) ∧ ‖q'‖ = 1 ∧ q' ≠ tiltQ ∧ q' ≠ -tiltQ := by
  obtain ⟨y, rfl, hy⟩ : ∃ y : ℝ, a = ![0, y, -7 / 25] ∧ (y = 24 / 25 ∨ y = -24 / 25) := by
    rcases ha with h | h
    · exact ⟨24 / 25, by rw [h, tilt_turned.1], Or.inl rfl⟩
    · exact ⟨-24 / 25, by rw [h, tilt_turned.2.2], Or.inr rfl⟩
  have hyy : y * y = (24 / 25) * (24 / 25) := by rcases hy with rfl | rfl <;> norm_num
  set x := tiltIn ![0, y, -7 / 25] with hx
  obtain ⟨C, h1, h2⟩ := kalm_feed_correct junk x (tilt_good _).freq (tilt_good _).varG (tilt_good _).varA (tilt_good _).varM tiltP t tiltQ
  have hs : x.after.sens = x.sens := by
    have hu : unitOf x.a = x.a := unitOf_unit (by simp [hx, tiltIn]; linarith)
    have hm : unitOf x.m = x.m := unitOf_unit (by simp [hx, tiltIn])
    unfold KalmIn.after
    rw [hu, hm]
  rw [hs] at h2
  refine ⟨_, _, h2, ?_⟩
  have hpost : x.attPost tiltQ tiltP C = direction (hq (4 / 5 - (15 / 2) * ((37 * (y - 48 / 25) + 24 * (7 / 25)) / 386))
      (3 / 5 - 10 * ((37 * (y - 48 / 25) + 24 * (7 / 25)) / 386) + 15 * ((24 * (y - 48 / 25) + 26 * (7 / 25)) / 386)) 0 0) := by
    rw [KalmIn.attPost, tilt_correction junk y hyy C h1, tilt_att]
    refine congrArg direction (Quaternion.ext _ _ ?_ ?_ ?_ ?_)
    · simp [tiltQ, ofCoords]
      ring
    · simp [tiltQ, ofCoords]
      ring
    · simp [tiltQ, ofCoords]
    · simp [tiltQ, ofCoords]
  rw [hpost]
  generalize hr : 4 / 5 - (15 / 2) * ((37 * (y - 48 / 25) + 24 * (7 / 25)) / 386) = r
  generalize hi : 3 / 5 - 10 * ((37 * (y - 48 / 25) + 24 * (7 / 25)) / 386) + 15 * ((24 * (y - 48 / 25) + 26 * (7 / 25)) / 386) = i
  have hr1 : 1 ≤ r := by rcases hy with rfl | rfl <;> rw [← hr] <;> norm_num
  have hne : 3 / 5 * r ≠ 4 / 5 * i := by rcases hy with rfl | rfl <;> rw [← hr, ← hi] <;> norm_num
  exact tilt_moved hr1 hne

/-- The witness meets the hypotheses of `kalm_covariance_partial`. -/
example (junk : ℕ → XR) (a : V3) : (tiltIn a).Good ∧ tiltP.PosSemidef ∧
    ∀ C, mtxInv junk (mat ((tiltIn a).S tiltQ tiltP) []) (Mtx.uninit junk 6 6) = ok (0, mat C []) → C * (tiltIn a).S tiltQ tiltP = 1 :=
  ⟨tilt_good a, Matrix.PosSemidef.smul Matrix.PosSemidef.one (by norm_num), tilt_inv junk a⟩

/-- C112, negation: the covariance is not propagated with the map which propagates the attitude. The attitude is multiplied with the rate from the
left, the covariance from the right. -/
theorem kalm_transition_mismatch : ∃ (x : KalmIn) (q : ℍ[ℝ]), x.Good ∧ ‖q‖ = 1 ∧
    x.att q ≠ direction (ofCoords (rightMul (1 + (1 / (2 * (x.freq : ℝ))) • pureQ x.g) *ᵥ coords q)) := by
  refine ⟨⟨1, none, 0, 0, 0, 0, 0, ![0, 0, 2]⟩, tiltQ, ⟨by simp, by simp, by simp, by simp⟩, norm_tiltQ, ?_⟩
  have e1 : (1 + (1 / (2 * ((1 : ℕ) : ℝ))) • pureQ ![0, 0, 2]) * direction tiltQ = hq (4 / 5) (3 / 5) (3 / 5) (4 / 5) := by
    rw [direction_of_norm_one norm_tiltQ]
    refine Quaternion.ext _ _ ?_ ?_ ?_ ?_ <;> simp [tiltQ, pureQ]
  have e2 : ofCoords (rightMul (1 + (1 / (2 * ((1 : ℕ) : ℝ))) • pureQ ![0, 0, 2]) *ᵥ coords tiltQ) = hq (4 / 5) (3 / 5) (-3 / 5) (4 / 5) := by
    rw [rightMul_spec]
    refine Quaternion.ext _ _ ?_ ?_ ?_ ?_ <;> simp [tiltQ, pureQ, ofCoords, coords]
    norm_num
  simp only [KalmIn.att, eulerStep]
  rw [e1, e2]
  have hn : ∀ y : ℝ, y * y = (3 / 5) * (3 / 5) → ‖hq (4 / 5) (3 / 5) y (4 / 5)‖ ^ 2 = 2 := by
    intro y hy
    rw [norm_sq_quat]
    simp only [hq_re, hq_imI, hq_imJ, hq_imK]
    nlinarith
  have h1 : ∀ y : ℝ, y * y = (3 / 5) * (3 / 5) → 1 ≤ ‖hq (4 / 5) (3 / 5) y (4 / 5)‖ := by
    intro y hy
    nlinarith [hn y hy, norm_nonneg (hq (4 / 5) (3 / 5) y (4 / 5))]
  have hm : (1e-6 : ℝ) ≤ 1 := by norm_num
  intro h
  rw [direction, direction, if_neg (not_lt.2 (hm.trans (h1 _ (by norm_num)))), if_neg (not_lt.2 (hm.trans (h1 _ (by norm_num))))] at h
  have e3 := congrArg (fun z : ℍ[ℝ] => z.imJ) h
  simp only [Quaternion.imJ_smul, hq_imJ, smul_eq_mul] at e3
  have p1 : 0 < ‖hq (4 / 5) (3 / 5) (3 / 5) (4 / 5)‖⁻¹ := inv_pos.2 (lt_of_lt_of_le one_pos (h1 _ (by norm_num)))
  have p2 : 0 < ‖hq (4 / 5) (3 / 5) (-3 / 5) (4 / 5)‖⁻¹ := inv_pos.2 (lt_of_lt_of_le one_pos (h1 _ (by norm_num)))
  linarith

/-- A level device pointing along a level field, at rest, with the readings the identity attitude predicts. -/
noncomputable def levelIn (f : ℕ) (vg va vm : ℝ) : KalmIn := ⟨f, some 0, vg, va, vm, down, ![1, 0, 0], 0⟩

theorem level_geom (f : ℕ) (vg va vm : ℝ) : (levelIn f vg va vm).att 1 = 1 ∧ (levelIn f vg va vm).field 1 = ![1, 0, 0] ∧
    (levelIn f vg va vm).H 1 = !![0, 0, 2, 0; 0, -2, 0, 0; 0, 0, 0, 0; 0, 0, 0, 0; 0, 0, 0, -2; 0, 0, 2, 0] := by
  set x := levelIn f vg va vm with hx
  have hone : ‖(1 : ℍ[ℝ])‖ = 1 := norm_one
  have hat : x.att 1 = 1 := by
    have h : pureQ (0 : V3) = 0 := by ext <;> simp [pureQ]
    simp only [KalmIn.att, eulerStep, hx, levelIn]
    rw [h, smul_zero, add_zero, one_mul, direction_direction, direction_of_norm_one hone]
  have hfi : x.field 1 = ![1, 0, 0] := by
    have h : earthField x.incl (x.att 1) (unitOf x.m) = ![1, 0, 0] := by simp [hx, levelIn, earthField]
    rw [KalmIn.field, h, KalmIn.unit3]
    have hl : len ![1, 0, 0] = 1 := by simp [len]
    rw [hl, if_neg (by norm_num)]
    simp
  have hH : x.H 1 = !![0, 0, 2, 0; 0, -2, 0, 0; 0, 0, 0, 0; 0, 0, 0, 0; 0, 0, 0, -2; 0, 0, 2, 0] := by
    rw [KalmIn.H, hfi, hat]
    ext i j
    fin_cases i <;> fin_cases j <;> simp [KalmIn.jac]
  exact ⟨hat, hfi, hH⟩

/-- C114, part: readings which agree with the identity attitude (a level device, level field) leave it alone, whatever the covariance. Missing:
other attitudes, for which it is false (`kalm_agreeing_readings`); exactness of the inversion is supposed. -/
theorem kalm_agreeing_level_partial (junk : ℕ → XR) (f : ℕ) (hf : 0 < f) (vg va vm : ℝ) (hG : 0 ≤ vg) (hA : 0 < va) (hM : 0 < vm)
    (P : Matrix (Fin 4) (Fin 4) ℝ) (t : List XR)
    (hC : ∀ C, mtxInv junk (mat ((levelIn f vg va vm).S 1 P) []) (Mtx.uninit junk 6 6) = ok (0, mat C []) → C * (levelIn f vg va vm).S 1 P = 1) :
    ∃ P', fusKalmFeed junk f (some (XR.fin 0)) (levelIn f vg va vm).sens ((levelIn f vg va vm).cfg P t) (quat 1) true =
        ok (0, (levelIn f vg va vm).sens, (levelIn f vg va vm).cfg P' t, quat 1, true) := by
  set x := levelIn f vg va vm with hx
  obtain ⟨C, h1, h2⟩ := kalm_feed_correct junk x hf hG hA.le hM.le P t 1
  have hone : ‖(1 : ℍ[ℝ])‖ = 1 := norm_one
  obtain ⟨hat, hfi, hH⟩ := level_geom f vg va vm
  rw [← hx] at hat hfi hH
  have hua : unitOf x.a = down := by
    show unitOf down = down
    exact unitOf_unit (by simp [down])
  have hum : unitOf x.m = ![1, 0, 0] := by
    show unitOf ![1, 0, 0] = ![1, 0, 0]
    exact unitOf_unit (by simp)
  have hin : x.innov 1 = ![0, 0, 1, -1, 0, 0] := by
    rw [KalmIn.innov, hat, hfi, hua, hum, turned_one, turned_one]
    ext i
    fin_cases i <;> simp [stack, down] <;> norm_num
  have hk : (x.H 1)ᵀ *ᵥ ![0, 0, 1 / va, -(1 / vm), 0, 0] = 0 := by
    rw [hH]
    ext i
    simp only [Matrix.mulVec, dotProduct, Fin.sum_univ_six, Matrix.transpose_apply]
    fin_cases i <;> simp
  have hw : x.S 1 P *ᵥ ![0, 0, 1 / va, -(1 / vm), 0, 0] = ![0, 0, 1, -1, 0, 0] := by
    rw [KalmIn.S, Matrix.add_mulVec, ← Matrix.mulVec_mulVec, hk, Matrix.mulVec_zero, zero_add]
    ext i
    rw [KalmIn.noise, Matrix.mulVec_diagonal]
    fin_cases i <;> simp [hx, levelIn, hA.ne', hM.ne']
  have hg : x.gain 1 P C *ᵥ x.innov 1 = 0 := by
    rw [hin, ← hw, KalmIn.gain, Matrix.mulVec_mulVec, Matrix.mul_assoc, hC C h1, Matrix.mul_one, ← Matrix.mulVec_mulVec, hk, Matrix.mulVec_zero]
  have hs : x.after.sens = x.sens := by
    unfold KalmIn.after
    rw [hua, hum]
    rfl
  have hp : x.attPost 1 P C = 1 := by
    rw [KalmIn.attPost, hg, hat, show ofCoords 0 = 0 by ext <;> simp [ofCoords], add_zero, direction_of_norm_one hone]
  rw [hs, hp] at h2
  exact ⟨_, h2⟩

def levelS : Matrix (Fin 6) (Fin 6) ℤ :=
  !![5, 0, 0, 0, 0, 4; 0, 5, 0, 0, 0, 0; 0, 0, 1, 0, 0, 0; 0, 0, 0, 1, 0, 0; 0, 0, 0, 0, 5, 0; 4, 0, 0, 0, 0, 5]

theorem level_S : (levelIn 100 0 1 1).S 1 1 = levelS.map (Int.cast : ℤ → ℝ) := by
  have h : pureQ (0 : V3) = 0 := by ext <;> simp [pureQ]
  have hp : (levelIn 100 0 1 1).prior 1 1 = 1 := by
    simp only [KalmIn.prior, levelIn]
    rw [h, smul_zero, add_zero, rightMul_one]
    simp
  rw [KalmIn.S, hp, (level_geom 100 0 1 1).2.2, KalmIn.noise, Matrix.mul_one]
  ext i j
  rw [Matrix.add_apply, Matrix.mul_apply, Fin.sum_univ_four]
  simp only [Matrix.transpose_apply, Matrix.map_apply]
  fin_cases i <;> fin_cases j <;> simp [levelS, levelIn] <;> norm_num

/-- A case which meets the hypotheses of `kalm_agreeing_level_partial`. -/
example (junk : ℕ → XR) (C : Matrix (Fin 6) (Fin 6) ℝ)
    (h : mtxInv junk (mat ((levelIn 100 0 1 1).S 1 1) []) (Mtx.uninit junk 6 6) = ok (0, mat C [])) : C * (levelIn 100 0 1 1).S 1 1 = 1 := by
  obtain ⟨D, h1, -, h2⟩ := mtx_inv_minors_partial junk levelS 0 [] [] (by omega) (by
    intro k hk
    interval_cases k <;> revert hk <;> decide +kernel)
  rw [mtxInv_uninit_eq junk _ 0 (by omega) (by omega), level_S, h1] at h
  have hCD : D = C := by
    have := congrArg (fun o : Out (Int × Mtx XR) => match o with | ok x => x.2 | ub => mat D []) h
    have := (mtxOf_inj this).1
    ext i j
    have := congrFun (congrFun this i) j
    simpa using this
  rw [level_S, ← hCD, h2]

end Verif
