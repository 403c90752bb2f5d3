import Verif.Props.NoChk2
import Verif.Model.NoChkOrient

/-!
# Builds without bounds checks: quaternions, attitude, compass, probability, centre of mass

The functions that return a number instead of a code report a refused argument as -22; for them the theorem names the accepted arguments.
-/

set_option linter.unusedSectionVars false

namespace Verif

open NoChkL Out

variable {R : Type} [CReal R]

theorem passed' {α : Type} {c : Prop} [Decidable c] {a out : α} {x : Int × α}
    (h : ok (if c then (-EINVAL, a) else x) = ok (0, out)) : ¬ c := by
  intro hc
  rw [if_pos hc] at h
  exact not_zero_einval h

/-! ### Quaternions -/

theorem quatExp_eq (q : Quat R) : NoChk.quatExp q = quatExp q := by
  unfold NoChk.quatExp quatExp
  simp only [vnorm_eq, toUnit_eq]

theorem quatLog_eq (q : Quat R) : NoChk.quatLog q = quatLog q := by
  unfold NoChk.quatLog quatLog
  simp only [toUnit_eq]

/-- C147. `zsl_quat_exp`, `zsl_quat_log` and `zsl_quat_pow` do the same in both builds. -/
theorem nochk_quat_exp_log_pow (q : Quat R) (e : R) :
    NoChk.quatExp q = quatExp q ∧ NoChk.quatLog q = quatLog q ∧ NoChk.quatPow q e = quatPow q e := by
  refine ⟨quatExp_eq q, quatLog_eq q, ?_⟩
  unfold NoChk.quatPow quatPow
  simp only [quatExp_eq, quatLog_eq]

/-- C147. `zsl_quat_rot`. -/
theorem nochk_quat_rot (qa qb qr : Quat R) : SameIfAccepted (ok (quatRot qa qb qr)) (ok (NoChk.quatRot qa qb qr)) := by
  refine sameIf_of_eq fun ⟨out, h⟩ => ?_
  have hg := passed' h
  unfold NoChk.quatRot quatRot
  rw [if_neg hg]

/-- C147. `zsl_quat_lerp`. -/
theorem nochk_quat_lerp (qa qb : Quat R) (t : R) (qi : Quat R) :
    SameIfAccepted (ok (quatLerp qa qb t qi)) (ok (NoChk.quatLerp qa qb t qi)) := by
  refine sameIf_of_eq fun ⟨out, h⟩ => ?_
  have hg := passed' h
  unfold NoChk.quatLerp quatLerp
  rw [if_neg hg]

/-- C147. `zsl_quat_slerp`. -/
theorem nochk_quat_slerp (qa qb : Quat R) (t : R) (qi : Quat R) :
    SameIfAccepted (ok (quatSlerp qa qb t qi)) (ok (NoChk.quatSlerp qa qb t qi)) := by
  refine sameIf_of_eq fun ⟨out, h⟩ => ?_
  have hg := passed' h
  unfold NoChk.quatSlerp quatSlerp
  rw [if_neg hg]

theorem fromAngVel_eq {w : Vec R} {qin : Quat R} {t : R} {qout : Quat R} (h : ¬ (w.sz ≠ 3 ∨ CReal.lt t (lit 0) = true)) :
    NoChk.quatFromAngVel w qin t qout = quatFromAngVel w qin t qout := by
  unfold NoChk.quatFromAngVel quatFromAngVel
  rw [if_neg h]

/-- C147. `zsl_quat_from_ang_vel`. -/
theorem nochk_quat_from_ang_vel (w : Vec R) (qin : Quat R) (t : R) (qout : Quat R) :
    SameIfAccepted (quatFromAngVel w qin t qout) (NoChk.quatFromAngVel w qin t qout) := by
  refine sameIf_of_eq fun ⟨out, h⟩ => ?_
  exact fromAngVel_eq (passed h)

/-- C147. `zsl_quat_from_ang_mom`. -/
theorem nochk_quat_from_ang_mom (junk : Nat → R) (l : Vec R) (qin : Quat R) (i t : R) (qout : Quat R) :
    SameIfAccepted (quatFromAngMom junk l qin i t qout) (NoChk.quatFromAngMom junk l qin i t qout) := by
  refine sameIf_of_eq fun ⟨out, h⟩ => ?_
  have hg := passed h
  unfold NoChk.quatFromAngMom quatFromAngMom
  rw [if_neg hg]
  push Not at hg
  refine bind_congr_ok rfl fun ⟨_, w⟩ hw => ?_
  dsimp only
  refine bind_congr_ok rfl fun ⟨_, w'⟩ hw' => ?_
  dsimp only
  rw [fromAngVel_eq]
  push Not
  exact ⟨by rw [sz_scalarDiv hw', sz_copy hw, hg.1], hg.2.1⟩

theorem shp_setm {m m' : Mtx R} {i j r c : Nat} {x : R} {rc : Int} (hm : m.rows = r ∧ m.cols = c) (he : mtxSet m i j x = ok (rc, m')) :
    m'.rows = r ∧ m'.cols = c := by
  unfold mtxSet at he
  by_cases h : i ≥ m.rows ∨ j ≥ m.cols
  · rw [if_pos h] at he
    cases he
    exact hm
  · rw [if_neg h] at he
    obtain ⟨_, _, he⟩ := bind_ok he
    cases he
    exact hm

theorem toRotMtx_eq {q : Quat R} {m : Mtx R} (hg : ¬ (m.cols ≠ 3 ∨ m.rows ≠ 3)) : NoChk.quatToRotMtx q m = quatToRotMtx q m := by
  unfold NoChk.quatToRotMtx quatToRotMtx
  rw [if_neg hg]
  push Not at hg
  have h0 : m.rows = 3 ∧ m.cols = 3 := ⟨hg.2, hg.1⟩
  rw [set_eq (by omega) (by omega)]
  refine bind_congr_ok rfl fun ⟨_, m1⟩ h1 => ?_
  replace h1 := shp_setm h0 h1
  dsimp only
  rw [set_eq (by omega) (by omega)]
  refine bind_congr_ok rfl fun ⟨_, m2⟩ h2 => ?_
  replace h2 := shp_setm h1 h2
  dsimp only
  rw [set_eq (by omega) (by omega)]
  refine bind_congr_ok rfl fun ⟨_, m3⟩ h3 => ?_
  replace h3 := shp_setm h2 h3
  dsimp only
  rw [set_eq (by omega) (by omega)]
  refine bind_congr_ok rfl fun ⟨_, m4⟩ h4 => ?_
  replace h4 := shp_setm h3 h4
  dsimp only
  rw [set_eq (by omega) (by omega)]
  refine bind_congr_ok rfl fun ⟨_, m5⟩ h5 => ?_
  replace h5 := shp_setm h4 h5
  dsimp only
  rw [set_eq (by omega) (by omega)]
  refine bind_congr_ok rfl fun ⟨_, m6⟩ h6 => ?_
  replace h6 := shp_setm h5 h6
  dsimp only
  rw [set_eq (by omega) (by omega)]
  refine bind_congr_ok rfl fun ⟨_, m7⟩ h7 => ?_
  replace h7 := shp_setm h6 h7
  dsimp only
  rw [set_eq (by omega) (by omega)]
  refine bind_congr_ok rfl fun ⟨_, m8⟩ h8 => ?_
  replace h8 := shp_setm h7 h8
  dsimp only
  rw [set_eq (by omega) (by omega)]

/-- C147. `zsl_quat_to_rot_mtx`. -/
theorem nochk_quat_to_rot_mtx (q : Quat R) (m : Mtx R) : SameIfAccepted (quatToRotMtx q m) (NoChk.quatToRotMtx q m) :=
  sameIf_of_eq fun ⟨_, h⟩ => toRotMtx_eq (passed h)

/-- C147. `zsl_quat_from_rot_mtx`. -/
theorem nochk_quat_from_rot_mtx (m : Mtx R) (q : Quat R) : SameIfAccepted (quatFromRotMtx m q) (NoChk.quatFromRotMtx m q) := by
  refine sameIf_of_eq fun ⟨out, h⟩ => ?_
  have hg := passed h
  unfold NoChk.quatFromRotMtx quatFromRotMtx
  rw [if_neg hg]

/-- C147. `zsl_quat_to_axis_angle`. -/
theorem nochk_quat_to_axis_angle (q : Quat R) (a : Vec R) (b : R) :
    SameIfAccepted (quatToAxisAngle q a b) (NoChk.quatToAxisAngle q a b) := by
  refine sameIf_of_eq fun ⟨out, h⟩ => ?_
  have hg := passed h
  unfold NoChk.quatToAxisAngle quatToAxisAngle
  rw [if_neg hg]

/-- C147. `zsl_quat_from_axis_angle`. -/
theorem nochk_quat_from_axis_angle (junk : Nat → R) (a : Vec R) (b : R) (q : Quat R) :
    SameIfAccepted (quatFromAxisAngle junk a b q) (NoChk.quatFromAxisAngle junk a b q) := by
  refine sameIf_of_eq fun ⟨out, h⟩ => ?_
  have hg := passed h
  unfold NoChk.quatFromAxisAngle quatFromAxisAngle
  rw [if_neg hg]

/-! ### Attitude and compass -/

theorem attFromAccel_eq {junk : Nat → R} {accel : Vec R} {a : Attitude R} (h : ¬ accel.sz ≠ 3) :
    NoChk.attFromAccel junk accel a = attFromAccel junk accel a := by
  unfold NoChk.attFromAccel attFromAccel
  rw [if_neg h]
  simp only [toUnit_eq]

/-- C147. `zsl_att_from_accel`. -/
theorem nochk_att_from_accel (junk : Nat → R) (accel : Vec R) (a : Attitude R) :
    SameIfAccepted (attFromAccel junk accel a) (NoChk.attFromAccel junk accel a) := by
  refine sameIf_of_eq fun ⟨out, h⟩ => ?_
  exact attFromAccel_eq (passed h)

/-- C147. `zsl_att_from_accelmag`. -/
theorem nochk_att_from_accelmag (junk : Nat → R) (accel mag : Vec R) (a : Attitude R) :
    SameIfAccepted (attFromAccelmag junk accel mag a) (NoChk.attFromAccelmag junk accel mag a) := by
  refine sameIf_of_eq fun ⟨out, h⟩ => ?_
  have hg := passed h
  unfold NoChk.attFromAccelmag attFromAccelmag
  rw [if_neg hg]
  push Not at hg
  simp only [toUnit_eq, attFromAccel_eq (not_not.mpr hg.1)]

/-- C147. `zsl_att_accel_angle`. -/
theorem nochk_att_accel_angle (junk : Nat → R) (a1 a2 : Vec R) (b : R) :
    SameIfAccepted (attAccelAngle junk a1 a2 b) (NoChk.attAccelAngle junk a1 a2 b) := by
  refine sameIf_of_eq fun ⟨out, h⟩ => ?_
  have hg := passed h
  unfold NoChk.attAccelAngle attAccelAngle
  rw [if_neg hg]
  push Not at hg
  simp only [vnorm_eq, vdot_eq (hg.1.trans hg.2.symm)]

/-- C147. `zsl_comp_dms_to_dd`. -/
theorem nochk_comp_dms_to_dd (d m s : R) : SameIfAccepted (ok (compDmsToDd d m s)) (ok (NoChk.compDmsToDd d m s)) := by
  refine sameIf_of_eq fun ⟨out, h⟩ => ?_
  unfold compDmsToDd at h
  have h1 := passed' h
  rw [if_neg h1] at h
  have h2 := passed' h
  rw [if_neg h2] at h
  have h3 := passed' h
  unfold NoChk.compDmsToDd compDmsToDd
  rw [if_neg h1, if_neg h2, if_neg h3]

theorem compMagnNorth_eq {m : Vec R} {d : R} (h : ¬ m.sz ≠ 3) : NoChk.compMagnNorth m d = compMagnNorth m d := by
  unfold NoChk.compMagnNorth compMagnNorth
  rw [if_neg h]

/-- C147. `zsl_comp_magn_north`. -/
theorem nochk_comp_magn_north (m : Vec R) (d : R) : SameIfAccepted (compMagnNorth m d) (NoChk.compMagnNorth m d) := by
  refine sameIf_of_eq fun ⟨out, h⟩ => ?_
  exact compMagnNorth_eq (passed h)

/-- C147. `zsl_comp_geo_north`. -/
theorem nochk_comp_geo_north (m : Vec R) (dec d : R) : SameIfAccepted (compGeoNorth m dec d) (NoChk.compGeoNorth m dec d) := by
  refine sameIf_of_eq fun ⟨out, h⟩ => ?_
  have hg := passed h
  unfold NoChk.compGeoNorth compGeoNorth
  rw [if_neg hg, compMagnNorth_eq hg]

/-! ### Probability -/

/-- C147. `zsl_prob_uni_pdf` and `zsl_prob_uni_cdf`, for any interval that is not refused. -/
theorem nochk_prob_uni (a b x : R) (h : CReal.ge a b = false) :
    NoChk.probUniPdf a b x = probUniPdf a b x ∧ NoChk.probUniCdf a b x = probUniCdf a b x := by
  have h' : ¬ CReal.ge a b = true := by simp [h]
  constructor
  · unfold NoChk.probUniPdf probUniPdf
    rw [if_neg h']
  · unfold NoChk.probUniCdf probUniCdf
    rw [if_neg h']

/-- C147. `zsl_prob_uni_mean`. -/
theorem nochk_prob_uni_mean (a b m : R) : SameIfAccepted (ok (probUniMean a b m)) (ok (NoChk.probUniMean a b m)) := by
  refine sameIf_of_eq fun ⟨out, h⟩ => ?_
  have hg := passed' h
  unfold NoChk.probUniMean probUniMean
  rw [if_neg hg]

/-- C147. `zsl_prob_uni_var`. -/
theorem nochk_prob_uni_var (a b v : R) : SameIfAccepted (ok (probUniVar a b v)) (ok (NoChk.probUniVar a b v)) := by
  refine sameIf_of_eq fun ⟨out, h⟩ => ?_
  have hg := passed' h
  unfold NoChk.probUniVar probUniVar
  rw [if_neg hg]

theorem erfInv_eq {x : R} (h1 : CReal.le x (lit (-1)) = false) (h2 : CReal.ge x (lit 1) = false) :
    NoChk.probErfInv x = probErfInv x := by
  unfold NoChk.probErfInv probErfInv
  rw [if_neg (by simp [h1, h2])]

/-- C147. `zsl_prob_erf_inv`, for any argument that is not refused. -/
theorem nochk_prob_erf_inv (x : R) (h1 : CReal.le x (lit (-1)) = false) (h2 : CReal.ge x (lit 1) = false) :
    NoChk.probErfInv x = probErfInv x := erfInv_eq h1 h2

/-- C147. `zsl_prob_normal_cdf_inv`, for any probability that is not refused: what it passes on to `zsl_prob_erf_inv` is not refused there. -/
theorem nochk_prob_normal_cdf_inv (m s p : XR) (h1 : CReal.le p (lit 0) = false) (h2 : CReal.ge p (lit 1) = false) :
    NoChk.probNormalCdfInv m s p = probNormalCdfInv m s p := by
  unfold NoChk.probNormalCdfInv probNormalCdfInv
  rw [if_neg (by rw [h1, h2]; exact Bool.false_ne_true)]
  dsimp only
  rw [erfInv_eq]
  · cases p with
    | fin x =>
      simp [XR.lit_eq] at h1 h2 ⊢
      linarith
    | nan => rfl
    | pinf => exact absurd h2 (by rw [XR.lit_eq]; decide)
    | ninf => exact absurd h1 (by rw [XR.lit_eq]; decide)
  · cases p with
    | fin x =>
      simp [XR.lit_eq] at h1 h2 ⊢
      linarith
    | nan => rfl
    | pinf => exact absurd h2 (by rw [XR.lit_eq]; decide)
    | ninf => exact absurd h1 (by rw [XR.lit_eq]; decide)

theorem binomialCoef_eq {n k c c' : Int} (h : 0 ≤ n) : NoChk.probBinomialCoef n k c = probBinomialCoef n k c' := by
  unfold NoChk.probBinomialCoef probBinomialCoef
  rw [if_neg (show ¬ n < 0 by omega)]

/-- C147. `zsl_prob_binomial_coef`. -/
theorem nochk_prob_binomial_coef (n k c : Int) : SameIfAccepted (probBinomialCoef n k c) (NoChk.probBinomialCoef n k c) := by
  refine sameIf_of_eq fun ⟨out, h⟩ => ?_
  exact binomialCoef_eq (by have := passed h; omega)

/-- C147. `zsl_prob_binomial_pdf` and `zsl_prob_binomial_cdf`, for any parameters that are not refused. -/
theorem nochk_prob_binomial (c0 n : Int) (p : R) (x : Int) (h1 : CReal.gt p (lit 1) = false) (h2 : CReal.lt p (lit 0) = false)
    (h3 : 0 ≤ n) :
    NoChk.probBinomialPdf c0 n p x = probBinomialPdf c0 n p x ∧ NoChk.probBinomialCdf c0 n p x = probBinomialCdf c0 n p x := by
  have hb : ¬ binomBad n p = true := by simp [binomBad, h1, h2, h3]
  constructor
  · unfold NoChk.probBinomialPdf probBinomialPdf NoChk.binomTerm binomTerm
    rw [if_neg hb, binomialCoef_eq h3]
  · unfold NoChk.probBinomialCdf probBinomialCdf
    rw [if_neg hb]
    simp only [binomialCoef_eq (c' := 0) h3]
    have : ∀ k c, probBinomialCoef n k c = probBinomialCoef n k 0 := by
      intro k c
      rw [← binomialCoef_eq (c := 0) h3, ← binomialCoef_eq (c := 0) h3]
    simp only [this _ (_ : Int)]

/-- C147. `zsl_prob_binomial_mean`. -/
theorem nochk_prob_binomial_mean (n : Int) (p m : R) :
    SameIfAccepted (ok (probBinomialMean n p m)) (ok (NoChk.probBinomialMean n p m)) := by
  refine sameIf_of_eq fun ⟨out, h⟩ => ?_
  have hg := passed' h
  unfold NoChk.probBinomialMean probBinomialMean
  rw [if_neg hg]

/-- C147. `zsl_prob_binomial_var`. -/
theorem nochk_prob_binomial_var (n : Int) (p v : R) :
    SameIfAccepted (ok (probBinomialVar n p v)) (ok (NoChk.probBinomialVar n p v)) := by
  refine sameIf_of_eq fun ⟨out, h⟩ => ?_
  have hg := passed' h
  unfold NoChk.probBinomialVar probBinomialVar
  rw [if_neg hg]

/-- C147. `zsl_prob_entropy`. -/
theorem nochk_prob_entropy (v : Vec R) (h : R) : SameIfAccepted (probEntropy v h) (NoChk.probEntropy v h) := by
  refine sameIf_of_eq fun ⟨out, he⟩ => ?_
  unfold probEntropy at he ⊢
  obtain ⟨c, hc, he⟩ := bind_ok he
  rw [hc, ok_bind]
  cases c with
  | ret _ => exact absurd he (fun h => not_zero_einval h)
  | next sum =>
    dsimp only at he ⊢
    by_cases hs : CReal.gt (CReal.abs sum) (lit 1e-6) = true
    · rw [if_pos hs] at he
      exact absurd he (fun h => not_zero_einval h)
    · rw [if_neg hs]
      rfl

/-- C147. `zsl_prob_bayes`. -/
theorem nochk_prob_bayes (pa pb pba pab : R) : SameIfAccepted (ok (probBayes pa pb pba pab)) (ok (NoChk.probBayes pa pb pba pab)) := by
  refine sameIf_of_eq fun ⟨out, h⟩ => ?_
  unfold probBayes at h
  have h1 := passed' h
  rw [if_neg h1] at h
  have h2 := passed' h
  rw [if_neg h2] at h
  have h3 := passed' h
  unfold NoChk.probBayes probBayes
  rw [if_neg h1, if_neg h2, if_neg h3]

/-! ### Centre of mass -/

/-- C147. `zsl_phy_mass_center`. -/
theorem nochk_phy_mass_center (m x y z : Vec R) (mx my mz : R) :
    SameIfAccepted (phyMassCenter m x y z mx my mz) (NoChk.phyMassCenter m x y z mx my mz) := by
  refine sameIf_of_eq fun ⟨out, h⟩ => ?_
  have hg := passed h
  unfold NoChk.phyMassCenter phyMassCenter
  rw [if_neg hg]
  push Not at hg
  rw [vdot_eq hg.1, vdot_eq (hg.1.trans hg.2.1), vdot_eq (hg.1.trans (hg.2.1.trans hg.2.2))]

/-! ### The calls above are accepted for ordinary arguments -/

example : ∃ out, quatFromAngVel (⟨3, [XR.fin 1, XR.fin 2, XR.fin 3]⟩) ⟨XR.fin 1, XR.fin 0, XR.fin 0, XR.fin 0⟩ (XR.fin 1) quatEmpty
    = ok (0, out) := by
  unfold quatFromAngVel
  rw [if_neg (by simp [XR.lit_eq])]
  exact ⟨_, rfl⟩

example : ∃ out, quatToRotMtx ⟨XR.fin 1, XR.fin 0, XR.fin 0, XR.fin 0⟩ ⟨3, 3, List.replicate 9 (XR.fin 0)⟩ = ok (0, out) := ⟨_, rfl⟩

example : ∃ out, ok (probBayes (XR.fin 0.5) (XR.fin 0.5) (XR.fin 0.5) (XR.fin 0)) = ok (0, out) := by
  unfold probBayes
  rw [if_neg (by simp [XR.lit_eq]; norm_num), if_neg (by simp [XR.lit_eq]; norm_num), if_neg (by simp [XR.lit_eq]; norm_num)]
  exact ⟨_, rfl⟩

example : ∃ out, attAccelAngle (fun _ => XR.fin 7) ⟨3, [XR.fin 1, XR.fin 2, XR.fin 3]⟩ ⟨3, [XR.fin 1, XR.fin 2, XR.fin 4]⟩ (XR.fin 0)
    = ok (0, out) := ⟨_, rfl⟩

end Verif
