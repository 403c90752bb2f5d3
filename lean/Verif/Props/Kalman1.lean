import Verif.Props.Fusion4
import Verif.Props.Calib4
import Verif.Props.Stat5
import Verif.Spec.Kalman

/-!
# The extended Kalman filter (C111, C112)
-/

namespace Verif

open Quaternion Matrix Out

/-! ## The matrices -/

theorem fromArr_un (junk : ℕ → XR) {r c : ℕ} (A : Matrix (Fin r) (Fin c) ℝ) :
    mtxFromArr (Mtx.uninit junk r c) (mat A []).data = ok (0, mat A []) := by
  obtain ⟨U, hU⟩ := uninit_eq junk r c
  have hl : (mat A []).data.length = r * c := (mat_list A).1
  rw [hU, mtx_from_arr_correct _ _ _ hl.ge]
  refine congrArg (fun M => ok ((0 : ℤ), mtxOf M [])) ?_
  ext i j
  simp only [Matrix.of_apply, mat, mtxOf, List.append_nil, List.getElem_ofFn]
  congr 1
  · rw [Fin.ext_iff, Fin.coe_divNat]
    simp only
    rw [Nat.add_comm, Nat.add_mul_div_right _ _ (Nat.zero_lt_of_lt j.2), Nat.div_eq_of_lt j.2, Nat.zero_add]
  · rw [Fin.ext_iff, Fin.coe_modNat]
    simp only
    rw [Nat.add_comm, Nat.add_mul_mod_self_right, Nat.mod_eq_of_lt j.2]

theorem mult_un (junk : ℕ → XR) {p n q : ℕ} (A : Matrix (Fin p) (Fin n) ℝ) (B : Matrix (Fin n) (Fin q) ℝ) (t u : List XR) :
    mtxMult (mat A t) (mat B u) (Mtx.uninit junk p q) = ok (0, mat (A * B) []) := by
  obtain ⟨U, hU⟩ := uninit_eq junk p q
  rw [hU, mtx_mult_correct]

theorem trans_un (junk : ℕ → XR) {p n : ℕ} (A : Matrix (Fin p) (Fin n) ℝ) (t : List XR) (hn : 0 < n) :
    mtxTrans junk (mat A t) (Mtx.uninit junk n p) = ok (0, mat Aᵀ []) := by
  obtain ⟨U, hU⟩ := uninit_eq junk n p
  rw [hU, mtx_trans_real _ _ _ _ _ hn]

theorem kalmF_data (h : ℝ) (g : V3) :
    kalmF (XR.fin h) (XR.fin (g 0)) (XR.fin (g 1)) (XR.fin (g 2)) = (mat (rightMul (1 + h • pureQ g)) []).data := by
  simp [kalmF, mat, mtxOf, List.ofFn_succ, Fin.divNat, Fin.modNat, rightMul, coords, ofCoords, pureQ, Pi.single_apply]

theorem kalmW_data (q : ℍ[ℝ]) : kalmW (quat q) = (mat (rateMap q) []).data := by
  simp [kalmW, quat, mat, mtxOf, List.ofFn_succ, Fin.divNat, Fin.modNat, rateMap, coords, pureQ, Pi.single_apply]

theorem kalmH_data (b : V3) (u : ℍ[ℝ]) : kalmH (quat u) (quat (pureQ b)) = (mat ((1 / 2 : ℝ) • KalmIn.jac b u) []).data := by
  simp only [kalmH, quat, mat, mtxOf, List.ofFn_succ, Fin.divNat, Fin.modNat, KalmIn.jac, pureQ, hq_imI, hq_imK, XR.lit_eq, XR.fin_mul, XR.fin_add,
    XR.fin_neg, XR.fin_sub]
  norm_num
  repeat' apply And.intro
  all_goals ring

/-! ## The prediction -/

theorem kalmPredict_mat (junk : ℕ → XR) {f : ℕ} (hf : 0 < f) (x : KalmIn) (hx : x.freq = f) (P : Matrix (Fin 4) (Fin 4) ℝ) (t : List XR)
    (q : ℍ[ℝ]) :
    kalmPredict junk f (XR.fin x.varG) (vec x.g []) (mat P t) (quat q) = ok (mat (x.prior q P) t, quat (x.att q)) := by
  subst hx
  have hh : (lit 1 / (lit 2 * CReal.ofNat x.freq) : XR) = XR.fin (1 / (2 * (x.freq : ℝ))) := by
    rw [XR.lit_eq, XR.lit_eq, XR.ofNat_eq, XR.fin_mul, XR.fin_div (by positivity)]; simp
  obtain ⟨r0, r1, r2⟩ := vec3_rd x.g []
  unfold kalmPredict
  simp only
  rw [hh, r0, r1, r2]
  simp only [ok_bind]
  rw [kalmF_data, fromArr_un, ok_bind]
  simp only
  rw [trans_un _ _ _ (by omega), ok_bind]
  simp only
  rw [kalmW_data, fromArr_un, ok_bind]
  simp only
  rw [trans_un _ _ _ (by omega), ok_bind]
  simp only
  rw [mult_un, ok_bind]
  simp only
  rw [XR.fin_mul, XR.fin_mul, mtx_scalar_mult_correct, ok_bind]
  simp only
  rw [mult_un, ok_bind]
  simp only
  rw [show mat P t = mtxOf (P.map XR.fin) t from rfl, mtx_mult_correct, ok_bind]
  simp only
  rw [(mtx_add_sub_d_correct _ _ _ _).1, ok_bind]
  simp only
  rw [dt_eq hf, quatFromAngVel_vec _ _ _ _ _ (by positivity), ok_bind]
  simp only [pure_eq]
  refine congrArg ok (Prod.ext ?_ ?_)
  · simp only [KalmIn.prior, pow_two, mul_assoc]
  · simp only [KalmIn.att, eulerStep, pureQ, div_div, mul_comm]

/-! ## The correction -/

theorem kalmNoise_mat (junk : ℕ → XR) (x : KalmIn) : kalmNoise junk (XR.fin x.varA) (XR.fin x.varM) = ok (mat x.noise []) := by
  obtain ⟨U, hU⟩ := uninit_eq junk 6 6
  unfold kalmNoise
  rw [hU, identity_of, ok_bind]
  simp only [mat]
  have s := fun (A : Matrix (Fin 6) (Fin 6) XR) (y : XR) (i : Fin 6) => mtx_set_correct A [] y i i
  rw [show (mtxSet _ 0 0 _ : Out (Int × Mtx XR)) = _ from s _ (XR.fin x.varA) 0, ok_bind]
  simp only
  rw [show (mtxSet _ 1 1 _ : Out (Int × Mtx XR)) = _ from s _ (XR.fin x.varA) 1, ok_bind]
  simp only
  rw [show (mtxSet _ 2 2 _ : Out (Int × Mtx XR)) = _ from s _ (XR.fin x.varA) 2, ok_bind]
  simp only
  rw [show (mtxSet _ 3 3 _ : Out (Int × Mtx XR)) = _ from s _ (XR.fin x.varM) 3, ok_bind]
  simp only
  rw [show (mtxSet _ 4 4 _ : Out (Int × Mtx XR)) = _ from s _ (XR.fin x.varM) 4, ok_bind]
  simp only
  rw [show (mtxSet _ 5 5 _ : Out (Int × Mtx XR)) = _ from s _ (XR.fin x.varM) 5, ok_bind]
  simp only [pure_eq]
  refine congrArg (fun M => ok (mtxOf M [])) ?_
  ext i j
  simp only [Matrix.of_apply, Matrix.map_apply, KalmIn.noise]
  fin_cases i <;> fin_cases j <;> simp

theorem kalmCorrect_mat (junk : ℕ → XR) (x : KalmIn) (z y : Fin 6 → ℝ) (J : Matrix (Fin 6) (Fin 4) ℝ) (P : Matrix (Fin 4) (Fin 4) ℝ) (t : List XR)
    (u : ℍ[ℝ]) :
    ∃ C, mtxInv junk (mat (J * P * Jᵀ + x.noise) []) (Mtx.uninit junk 6 6) = ok (0, mat C []) ∧
      kalmCorrect junk (XR.fin x.varA) (XR.fin x.varM) (mat (Matrix.of fun i (_ : Fin 1) => z i) []) (mat (Matrix.of fun i (_ : Fin 1) => y i) [])
        (mat ((1 / 2 : ℝ) • J) []).data (mat P t) (quat u) =
      ok (mat ((1 - P * Jᵀ * C * J) * P) t, quat (direction (u + ofCoords ((P * Jᵀ * C) *ᵥ (z - y))))) := by
  obtain ⟨C, hC⟩ := mtxInv_real junk (J * P * Jᵀ + x.noise) 0 (by omega) (by omega)
  rw [← mtxInv_uninit_eq _ _ _ (by omega) (by omega)] at hC
  refine ⟨C, hC, ?_⟩
  obtain ⟨U61, hU61⟩ := uninit_eq junk 6 1
  obtain ⟨U66, hU66⟩ := uninit_eq junk 6 6
  obtain ⟨U44, hU44⟩ := uninit_eq junk 4 4
  unfold kalmCorrect
  rw [fromArr_un, ok_bind]
  simp only
  rw [XR.lit_eq, mtx_scalar_mult_correct, ok_bind]
  simp only
  rw [smul_smul, show (((2 : ℚ) : ℝ) * (1 / 2)) = 1 by norm_num, one_smul, trans_un _ _ _ (by omega), ok_bind]
  simp only
  rw [kalmNoise_mat, ok_bind, hU61, (mtx_add_sub_correct _ _ _ _ _ _).2, ok_bind]
  simp only
  rw [mult_un, ok_bind]
  simp only
  rw [mult_un, ok_bind]
  simp only
  rw [show mtxAdd (mat (J * P * Jᵀ) []) (mat x.noise []) (Mtx.uninit junk 6 6) = ok (0, mat (J * P * Jᵀ + x.noise) []) by
    rw [hU66, (mtx_add_sub_correct _ _ _ _ _ _).1], ok_bind]
  simp only
  rw [hC, ok_bind]
  simp only
  rw [mult_un, ok_bind]
  simp only
  rw [mult_un, ok_bind]
  simp only
  rw [show mtxInit (Mtx.uninit junk 4 4) (some entryFnIdentity) = ok (0, mat (1 : Matrix (Fin 4) (Fin 4) ℝ) []) by
    rw [hU44, identity_of], ok_bind]
  simp only
  rw [mult_un, ok_bind]
  simp only
  rw [(mtx_add_sub_d_correct _ _ _ _).2, ok_bind]
  simp only
  rw [show mtxMult (mat (1 - P * Jᵀ * C * J) []) (mat P t) (mat P t) = ok (0, mat ((1 - P * Jᵀ * C * J) * P) t) from
    mtx_mult_correct _ _ (P.map XR.fin) _ _ _, ok_bind]
  simp only
  rw [mult_un, ok_bind]
  simp only
  rw [show (Matrix.of fun i (_ : Fin 1) => z i) - (Matrix.of fun i (_ : Fin 1) => y i) = Matrix.of fun i (_ : Fin 1) => (z - y) i from rfl,
    show (mat (P * Jᵀ * C * Matrix.of fun i (_ : Fin 1) => (z - y) i) []).data = (vec ((P * Jᵀ * C) *ᵥ (z - y)) []).data from rfl]
  generalize (P * Jᵀ * C) *ᵥ (z - y) = d
  have h0 := (vec_is d []).rd 0
  have h1 := (vec_is d []).rd 1
  have h2 := (vec_is d []).rd 2
  have h3 := (vec_is d []).rd 3
  simp only [Fin.coe_ofNat_eq_mod, Nat.zero_mod, Nat.one_mod, Nat.mod_succ, Nat.reduceMod] at h0 h1 h2 h3
  rw [h0, h1, h2, h3]
  simp only [ok_bind, pure_eq]
  rw [← quatToUnit_quat]
  rfl

theorem quatRot_any (a b : ℍ[ℝ]) (qr : Quat XR) (hb : |b.re| ≤ 1e-6) :
    (quatRot (quat a) (quat b) qr).2 = quat (direction a * b * (direction a)⁻¹) := by
  by_cases h : 1e-6 ≤ ‖a‖
  · rw [quatRot_quat a b qr h hb]
  · have hd : direction a = 0 := by rw [direction, if_pos (not_le.1 h)]
    have hl : (((1e-6 : ℚ)) : ℝ) = 1e-6 := by norm_num
    unfold quatRot
    rw [if_neg (by
      simp only [quat, XR.fin_abs, XR.lit_eq, hl]
      rw [XR.fin_gt]; exact not_lt.2 hb)]
    simp only
    rw [quatToUnit_quat, hd, quat_mult_correct]
    unfold quatInv
    have hz : quatIsZero (quat 0) = true := by
      rw [quatIsZero_quat]
      simp
      norm_num
    simp only
    rw [if_pos (show CReal.lt (CReal.abs (quatMagn (quat 0))) (lit 1e-6) = true from hz), show (quatEmpty : Quat XR) = quat 0 by simp [quatEmpty, quat], quat_mult_correct]
    simp

theorem quatRot_turned (a : ℍ[ℝ]) (v : V3) (qr : Quat XR) :
    ∃ r : ℝ, (quatRot (quat a) (quat (pureQ v)) qr).2 = ⟨XR.fin r, XR.fin (turned a v 0), XR.fin (turned a v 1), XR.fin (turned a v 2)⟩ := by
  rw [quatRot_any a (pureQ v) qr (by simp [pureQ]; norm_num)]
  exact ⟨_, rfl⟩

theorem earthField_any (junk : ℕ → XR) (incl : Option ℝ) (q : ℍ[ℝ]) (m : V3) :
    fusEarthField junk (optFin incl) (quat q) (quat (pureQ m)) =
      (XR.fin (earthField incl q m 0), XR.fin (earthField incl q m 2)) := by
  cases incl with
  | some x =>
    have := fusEarthField_quat junk (some x) 1 m (by norm_num)
    exact this
  | none =>
    unfold fusEarthField optFin
    simp only [Option.map_none]
    obtain ⟨r, hr⟩ := quatRot_turned q m (quatJunk junk)
    rw [hr]
    simp only [XR.fin_mul, XR.fin_add]
    rw [XR.fin_sqrt (add_nonneg (mul_self_nonneg _) (mul_self_nonneg _))]
    rfl

theorem norm_pureQ_len (v : V3) : ‖pureQ v‖ = len v := by
  rw [len, ← Real.sqrt_sq (norm_nonneg _), norm_sq_quat]
  congr 1
  simp [pureQ, dotProduct, Fin.sum_univ_three, pow_two]

theorem direction_pureQ (v : V3) : direction (pureQ v) = pureQ (KalmIn.unit3 v) := by
  unfold direction KalmIn.unit3
  rw [norm_pureQ_len]
  split_ifs
  · ext <;> simp [pureQ]
  · ext <;> simp [pureQ]

theorem kalmField_quat (junk : ℕ → XR) (x : KalmIn) (q : ℍ[ℝ]) :
    kalmField junk (optFin x.incl) (quat (x.att q)) (quat (pureQ (unitOf x.m))) = quat (pureQ (x.field q)) := by
  unfold kalmField
  rw [earthField_any]
  simp only
  rw [earth_quat, quatToUnit_quat, direction_pureQ]
  rfl

theorem kalmModel_quat (junk : ℕ → XR) (u : ℍ[ℝ]) (b : V3) :
    kalmModel junk (quat u) (quat (pureQ b)) =
      mat (Matrix.of fun i (_ : Fin 1) => ((2 : ℝ) • stack (turned u down) (turned u b)) i) [] := by
  unfold kalmModel
  have hd : (⟨lit 0, lit 0, lit 0, lit (-1)⟩ : Quat XR) = quat (pureQ down) := by simp [quat, pureQ, down]
  obtain ⟨r, hr⟩ := quatRot_turned u down (quatJunk junk)
  obtain ⟨r', hr'⟩ := quatRot_turned u b (quatJunk junk)
  rw [hd, hr, hr']
  simp [mat, mtxOf, List.ofFn_succ, Fin.divNat, Fin.modNat, stack]

theorem kalmMeas_vec (a m : V3) : kalmMeas (vec a []) (vec m []) = ok (mat (Matrix.of fun i (_ : Fin 1) => stack a m i) []) := by
  unfold kalmMeas
  obtain ⟨r0, r1, r2⟩ := vec3_rd a []
  obtain ⟨s0, s1, s2⟩ := vec3_rd m []
  rw [r0, r1, r2, s0, s1, s2]
  simp [mat, mtxOf, List.ofFn_succ, Fin.divNat, Fin.modNat, stack]

/-! ## One call of the filter -/

/-- The sample after the call: the filter normalises the readings in place. -/
noncomputable def KalmIn.after (x : KalmIn) : KalmIn := { x with a := unitOf x.a, m := unitOf x.m }

theorem fusKalman_mat (junk : ℕ → XR) (x : KalmIn) (hf : 0 < x.freq) (P : Matrix (Fin 4) (Fin 4) ℝ) (t : List XR) (q : ℍ[ℝ]) :
    ∃ C, mtxInv junk (mat (x.S q P) []) (Mtx.uninit junk 6 6) = ok (0, mat C []) ∧
      fusKalman junk x.freq (optFin x.incl) (x.cfg P t) x.sens (quat q) =
        ok (0, x.after.sens, mat (x.post q P C) t, quat (x.attPost q P C)) := by
  obtain ⟨C, h1, h2⟩ := kalmCorrect_mat junk x (stack (unitOf x.a) (unitOf x.m))
    ((2 : ℝ) • stack (turned (x.att q) down) (turned (x.att q) (x.field q))) (x.H q) (x.prior q P) t (x.att q)
  refine ⟨C, h1, ?_⟩
  unfold fusKalman
  simp only [KalmIn.sens, KalmIn.cfg]
  rw [if_neg (by simp), kalmPredict_mat junk hf x rfl, ok_bind]
  simp only
  rw [vecToUnit_vec, ok_bind]
  simp only
  rw [vecToUnit_vec, ok_bind]
  simp only
  rw [kalmMeas_vec, ok_bind, quatOfVec_vec, ok_bind, kalmField_quat, kalmModel_quat, kalmH_data, show KalmIn.jac (x.field q) (x.att q) = x.H q from rfl, h2, ok_bind]
  rfl

/-- C112: one call of the filter with real readings, variances, attitude and covariance. The covariance and the attitude are predicted from
the rate, and corrected with the gain `P Hᵀ C`, where `C` is what the library's inversion makes of the covariance `S` of the innovation. The call
succeeds, and nothing is written but the attitude, the covariance and the two readings, which are normalised. -/
theorem kalm_feed_correct (junk : ℕ → XR) (x : KalmIn) (hf : 0 < x.freq) (hG : 0 ≤ x.varG) (hA : 0 ≤ x.varA) (hM : 0 ≤ x.varM)
    (P : Matrix (Fin 4) (Fin 4) ℝ) (t : List XR) (q : ℍ[ℝ]) :
    ∃ C, mtxInv junk (mat (x.S q P) []) (Mtx.uninit junk 6 6) = ok (0, mat C []) ∧
      fusKalmFeed junk x.freq (optFin x.incl) x.sens (x.cfg P t) (quat q) true =
        ok (0, x.after.sens, x.cfg (x.post q P C) t, quat (x.attPost q P C), true) := by
  obtain ⟨C, h1, h2⟩ := fusKalman_mat junk x hf P t q
  refine ⟨C, h1, ?_⟩
  unfold fusKalmFeed
  rw [if_neg (by simp [KalmIn.cfg, hG, hA, hM]), if_pos rfl, h2, ok_bind]
  rfl

/-- C112: the prediction of the covariance uses the matrix which takes an attitude `p` to `p (1 + ω / 2f)`. -/
theorem rightMul_spec (p q : ℍ[ℝ]) : rightMul p *ᵥ coords q = coords (q * p) := by
  ext i
  fin_cases i <;> simp [rightMul, Matrix.mulVec, dotProduct, Fin.sum_univ_four, coords, ofCoords, Pi.single_apply] <;> ring

/-- C112: the noise of the gyroscope enters through the map from a rate `w` to `q w`. -/
theorem rateMap_spec (q : ℍ[ℝ]) (w : V3) : rateMap q *ᵥ w = coords (q * pureQ w) := by
  ext i
  fin_cases i <;> simp [rateMap, Matrix.mulVec, dotProduct, Fin.sum_univ_three, coords, pureQ, Pi.single_apply] <;> ring

/-- For quaternions of length one `seenBy` is the rotation by the conjugate. -/
theorem seenBy_turned {u : ℍ[ℝ]} (hu : ‖u‖ = 1) (v : V3) : seenBy u v = turned (star u) v := by
  have h1 := unit_eq hu
  have hs : ‖star u‖ = 1 := by rw [norm_star]; exact hu
  have hi : (star u)⁻¹ = u := by
    have : star u * u = 1 := by rw [Quaternion.star_mul_self, Quaternion.normSq_eq_norm_mul_self, hu]; simp
    exact inv_eq_of_mul_eq_one_right this
  unfold turned
  rw [direction_of_norm_one hs, hi]
  ext i
  fin_cases i
  · simp [seenBy, pureQ]
    linear_combination -v 0 * h1
  · simp [seenBy, pureQ]
    linear_combination -v 1 * h1
  · simp [seenBy, pureQ]
    linear_combination -v 2 * h1

/-- C112: `H` is the derivative, in every direction `d`, of the directions seen from the attitude (that is, turned by its conjugate). -/
theorem jac_spec (b : V3) (hb : b 1 = 0) (u d : ℍ[ℝ]) (i : Fin 6) :
    HasDerivAt (fun s : ℝ => stack (seenBy (u + s • d) down) (seenBy (u + s • d) b) i) ((KalmIn.jac b u *ᵥ coords d) i) 0 := by
  have key : ∀ (c0 c1 c2 : ℝ), HasDerivAt (fun s : ℝ => c0 + s * c1 + s ^ 2 * c2) c1 0 := by
    intro c0 c1 c2
    have := (((hasDerivAt_id (0 : ℝ)).mul_const c1).const_add c0).add (((hasDerivAt_id (0 : ℝ)).pow 2).mul_const c2)
    exact HasDerivAt.congr_deriv this (by simp)
  have h : ∀ (F : ℝ → ℝ) (c0 c1 c2 : ℝ), (∀ s, F s = c0 + s * c1 + s ^ 2 * c2) → HasDerivAt F c1 0 := by
    intro F c0 c1 c2 hF
    rw [show F = fun s => c0 + s * c1 + s ^ 2 * c2 from funext hF]
    exact key _ _ _
  refine h _ (stack (seenBy u down) (seenBy u b) i) _
    (stack (seenBy d down) (seenBy d b) i - stack down b i) fun s => ?_
  fin_cases i <;>
  · simp [stack, seenBy, down, KalmIn.jac, Matrix.mulVec, dotProduct, Fin.sum_univ_four, coords, hb]
    ring

end Verif
