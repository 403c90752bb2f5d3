import Verif.Lemmas.NoChk5

/-!
# Lemmas for builds without bounds checks: Kalman filter
-/

set_option linter.unusedSectionVars false

namespace Verif.NoChkL

open Out

theorem predict_eq {junk : Nat → XR} {freq : Nat} {varG : XR} {g : Vec XR} {P : Mtx XR} {q : Quat XR} (hg : g.sz = 3) (hP : Shp P 4 4) :
    NoChk.kalmPredict junk freq varG g P q = kalmPredict junk freq varG g P q ∧
    ∀ P' q', kalmPredict junk freq varG g P q = ok (P', q') → Shp P' 4 4 := by
  constructor
  · unfold NoChk.kalmPredict kalmPredict
    dsimp only
    iterate 3 refine bind_congr_ok rfl fun _ _ => ?_
    refine bind_congr_ok rfl fun ⟨_, F⟩ hF => ?_
    dsimp only
    replace hF := shp_fromArr (a := Mtx.uninit junk 4 4) (r := 4) (c := 4) ⟨rfl, rfl⟩ hF
    refine bind_congr_ok (trans_eq (b := Mtx.uninit junk 4 4) hF.1 hF.2) fun ⟨_, Ft⟩ hFt => ?_
    dsimp only
    replace hFt := shp_trans (b := Mtx.uninit junk 4 4) (r := 4) (c := 4) ⟨rfl, rfl⟩ hFt
    refine bind_congr_ok rfl fun ⟨_, W⟩ hW => ?_
    dsimp only
    replace hW := shp_fromArr (a := Mtx.uninit junk 4 3) (r := 4) (c := 3) ⟨rfl, rfl⟩ hW
    refine bind_congr_ok (trans_eq (b := Mtx.uninit junk 3 4) hW.1 hW.2) fun ⟨_, Wt⟩ hWt => ?_
    dsimp only
    replace hWt := shp_trans (b := Mtx.uninit junk 3 4) (r := 3) (c := 4) ⟨rfl, rfl⟩ hWt
    refine bind_congr_ok (mult_eq (c := Mtx.uninit junk 4 4) (hW.2.trans hWt.1.symm) hW.1.symm hWt.2.symm) fun ⟨_, Q⟩ hQ => ?_
    dsimp only
    replace hQ := shp_mult (c := Mtx.uninit junk 4 4) (r := 4) (k := 4) ⟨rfl, rfl⟩ hQ
    refine bind_congr_ok rfl fun ⟨_, Q'⟩ hQ' => ?_
    dsimp only
    replace hQ' := shp_scalarMult hQ hQ'
    refine bind_congr_ok (mult_eq (c := Mtx.uninit junk 4 4) (hF.2.trans hP.1.symm) hF.1.symm hP.2.symm) fun ⟨_, FP⟩ hFP => ?_
    dsimp only
    replace hFP := shp_mult (c := Mtx.uninit junk 4 4) (r := 4) (k := 4) ⟨rfl, rfl⟩ hFP
    refine bind_congr_ok (mult_eq (hFP.2.trans hFt.1.symm) (hP.1.trans hFP.1.symm) (hP.2.trans hFt.2.symm)) fun ⟨_, P1⟩ hP1 => ?_
    dsimp only
    replace hP1 := shp_mult hP hP1
    refine bind_congr_ok (binaryOpD_eq (hP1.1.trans hQ'.1.symm) (hP1.2.trans hQ'.2.symm)) fun ⟨_, P2⟩ hP2 => ?_
    dsimp only
    rw [fromAngVel_eq (by push Not; exact ⟨hg, by simpa using dt_ok freq⟩)]
  · intro P' q' h
    unfold kalmPredict at h
    dsimp only at h
    iterate 10 obtain ⟨_, _, h⟩ := bind_ok h
    obtain ⟨⟨_, P1⟩, h1, h⟩ := bind_ok h
    obtain ⟨⟨_, P2⟩, h2, h⟩ := bind_ok h
    obtain ⟨_, _, h⟩ := bind_ok h
    cases h
    exact shp_binaryOpD (shp_mult hP h1) h2

theorem field_eq {junk : Nat → XR} {incl : Option XR} {q qm : Quat XR} (h : qm.r = lit 0) :
    NoChk.kalmField junk incl q qm = kalmField junk incl q qm := by
  unfold NoChk.kalmField kalmField
  rw [earthField_eq h]

theorem field_pure {junk : Nat → XR} {incl : Option XR} {q qm : Quat XR} :
    ¬ CReal.gt (CReal.abs (kalmField junk incl q qm).r) (lit 1e-6) = true := by
  unfold kalmField
  generalize fusEarthField junk incl q qm = e
  obtain ⟨x, z⟩ := e
  dsimp only
  unfold quatToUnit
  generalize quatMagn (⟨lit 0, x, lit 0, z⟩ : Quat XR) = m
  dsimp only
  by_cases h : CReal.lt (CReal.abs m) (lit 1e-6) = true
  · rw [if_pos h, XR.lit_eq, XR.lit_eq]
    simp
    norm_num
  · rw [if_neg h, XR.lit_eq, XR.lit_eq]
    dsimp only
    cases m with
    | fin y =>
      have hy : y ≠ 0 := by
        rintro rfl
        apply h
        rw [XR.lit_eq]
        simp
        norm_num
      rw [XR.fin_div hy]
      simp
      norm_num
    | nan => exact Bool.false_ne_true
    | pinf =>
      have : (XR.fin ((0 : ℚ) : ℝ) / XR.pinf) = XR.fin 0 := rfl
      rw [this]
      simp
      norm_num
    | ninf =>
      have : (XR.fin ((0 : ℚ) : ℝ) / XR.ninf) = XR.fin 0 := rfl
      rw [this]
      simp
      norm_num

theorem model_eq {junk : Nat → XR} {q mg : Quat XR} (h : ¬ CReal.gt (CReal.abs mg.r) (lit 1e-6) = true) :
    NoChk.kalmModel junk q mg = kalmModel junk q mg := by
  have h2 : NoChk.quatRot q mg (quatJunk junk) = quatRot q mg (quatJunk junk) := by
    unfold NoChk.quatRot quatRot
    rw [if_neg h]
  unfold NoChk.kalmModel kalmModel
  rw [rot_pure rfl, h2]

theorem noise_eq {junk : Nat → XR} {a m : XR} :
    NoChk.kalmNoise junk a m = kalmNoise junk a m ∧ ∀ r, kalmNoise junk a m = ok r → Shp r 6 6 := by
  have hi := (init_identity (m := (Mtx.uninit junk 6 6 : Mtx XR)))
  constructor
  · unfold NoChk.kalmNoise kalmNoise
    refine bind_congr_ok hi.1 fun ⟨_, r0⟩ h0 => ?_
    dsimp only
    replace h0 : Shp r0 6 6 := hi.2 _ _ h0
    refine bind_congr_ok (set_eq (by rw [h0.1]; omega) (by rw [h0.2]; omega)) fun ⟨_, r1⟩ h1 => ?_
    dsimp only
    replace h1 := shp_set h0 h1
    refine bind_congr_ok (set_eq (by rw [h1.1]; omega) (by rw [h1.2]; omega)) fun ⟨_, r2⟩ h2 => ?_
    dsimp only
    replace h2 := shp_set h1 h2
    refine bind_congr_ok (set_eq (by rw [h2.1]; omega) (by rw [h2.2]; omega)) fun ⟨_, r3⟩ h3 => ?_
    dsimp only
    replace h3 := shp_set h2 h3
    refine bind_congr_ok (set_eq (by rw [h3.1]; omega) (by rw [h3.2]; omega)) fun ⟨_, r4⟩ h4 => ?_
    dsimp only
    replace h4 := shp_set h3 h4
    refine bind_congr_ok (set_eq (by rw [h4.1]; omega) (by rw [h4.2]; omega)) fun ⟨_, r5⟩ h5 => ?_
    dsimp only
    replace h5 := shp_set h4 h5
    exact bind_congr_ok (set_eq (by rw [h5.1]; omega) (by rw [h5.2]; omega)) fun ⟨_, r6⟩ _ => rfl
  · intro r h
    unfold kalmNoise at h
    obtain ⟨⟨_, r0⟩, h0, h⟩ := bind_ok h
    obtain ⟨⟨_, r1⟩, h1, h⟩ := bind_ok h
    obtain ⟨⟨_, r2⟩, h2, h⟩ := bind_ok h
    obtain ⟨⟨_, r3⟩, h3, h⟩ := bind_ok h
    obtain ⟨⟨_, r4⟩, h4, h⟩ := bind_ok h
    obtain ⟨⟨_, r5⟩, h5, h⟩ := bind_ok h
    obtain ⟨⟨_, r6⟩, h6, h⟩ := bind_ok h
    cases h
    exact shp_set (shp_set (shp_set (shp_set (shp_set (shp_set (hi.2 _ _ h0) h1) h2) h3) h4) h5) h6

theorem correct_eq {junk : Nat → XR} {varA varM : XR} {z hx : Mtx XR} {hd : List XR} {P : Mtx XR} {q : Quat XR}
    (hz : Shp z 6 1) (hh : Shp hx 6 1) (hP : Shp P 4 4) :
    NoChk.kalmCorrect junk varA varM z hx hd P q = kalmCorrect junk varA varM z hx hd P q := by
  unfold NoChk.kalmCorrect kalmCorrect
  refine bind_congr_ok rfl fun ⟨_, H0⟩ h0 => ?_
  dsimp only
  replace h0 := shp_fromArr (a := Mtx.uninit junk 6 4) (r := 6) (c := 4) ⟨rfl, rfl⟩ h0
  refine bind_congr_ok rfl fun ⟨_, H⟩ hH => ?_
  dsimp only
  replace hH := shp_scalarMult h0 hH
  refine bind_congr_ok (trans_eq (b := Mtx.uninit junk 4 6) hH.1 hH.2) fun ⟨_, Ht⟩ hHt => ?_
  dsimp only
  replace hHt := shp_trans (b := Mtx.uninit junk 4 6) (r := 4) (c := 6) ⟨rfl, rfl⟩ hHt
  refine bind_congr_ok noise_eq.1 fun r hr => ?_
  replace hr := noise_eq.2 _ hr
  refine bind_congr_ok (binaryOp_eq (c := Mtx.uninit junk 6 1) (hz.1.trans hh.1.symm) hh.1 (hz.2.trans hh.2.symm) hh.2) fun ⟨_, v⟩ hv => ?_
  dsimp only
  replace hv := shp_binaryOp (c := Mtx.uninit junk 6 1) (r := 6) (k := 1) ⟨rfl, rfl⟩ hv
  refine bind_congr_ok (mult_eq (c := Mtx.uninit junk 6 4) (hH.2.trans hP.1.symm) hH.1.symm hP.2.symm) fun ⟨_, HP⟩ hHP => ?_
  dsimp only
  replace hHP := shp_mult (c := Mtx.uninit junk 6 4) (r := 6) (k := 4) ⟨rfl, rfl⟩ hHP
  refine bind_congr_ok (mult_eq (c := Mtx.uninit junk 6 6) (hHP.2.trans hHt.1.symm) hHP.1.symm hHt.2.symm) fun ⟨_, HPHt⟩ h6 => ?_
  dsimp only
  replace h6 := shp_mult (c := Mtx.uninit junk 6 6) (r := 6) (k := 6) ⟨rfl, rfl⟩ h6
  refine bind_congr_ok (binaryOp_eq (c := Mtx.uninit junk 6 6) (h6.1.trans hr.1.symm) hr.1 (h6.2.trans hr.2.symm) hr.2) fun ⟨_, S⟩ hS => ?_
  dsimp only
  replace hS := shp_binaryOp (c := Mtx.uninit junk 6 6) (r := 6) (k := 6) ⟨rfl, rfl⟩ hS
  refine bind_congr_ok (inv_eq (m := S) (mi := Mtx.uninit junk 6 6) hS.1.symm hS.2.symm) fun ⟨_, Si⟩ hSi => ?_
  dsimp only
  replace hSi : Shp Si 6 6 := shp_inv (m := S) (mi := Mtx.uninit junk 6 6) hS.1.symm hS.2.symm hSi
  refine bind_congr_ok (mult_eq (c := Mtx.uninit junk 4 6) (hP.2.trans hHt.1.symm) hP.1.symm hHt.2.symm) fun ⟨_, PHt⟩ hPHt => ?_
  dsimp only
  replace hPHt := shp_mult (c := Mtx.uninit junk 4 6) (r := 4) (k := 6) ⟨rfl, rfl⟩ hPHt
  refine bind_congr_ok (mult_eq (c := Mtx.uninit junk 4 6) (hPHt.2.trans hSi.1.symm) hPHt.1.symm hSi.2.symm) fun ⟨_, K⟩ hK => ?_
  dsimp only
  replace hK := shp_mult (c := Mtx.uninit junk 4 6) (r := 4) (k := 6) ⟨rfl, rfl⟩ hK
  refine bind_congr_ok (init_identity (m := Mtx.uninit junk 4 4)).1 fun ⟨_, I⟩ hI => ?_
  dsimp only
  replace hI : Shp I 4 4 := (init_identity (m := Mtx.uninit junk 4 4)).2 _ _ hI
  refine bind_congr_ok (mult_eq (c := Mtx.uninit junk 4 4) (hK.2.trans hH.1.symm) hK.1.symm hH.2.symm) fun ⟨_, KH⟩ hKH => ?_
  dsimp only
  replace hKH := shp_mult (c := Mtx.uninit junk 4 4) (r := 4) (k := 4) ⟨rfl, rfl⟩ hKH
  refine bind_congr_ok (binaryOpD_eq (hI.1.trans hKH.1.symm) (hI.2.trans hKH.2.symm)) fun ⟨_, I'⟩ hI' => ?_
  dsimp only
  replace hI' := shp_binaryOpD hI hI'
  refine bind_congr_ok (mult_eq (hI'.2.trans hP.1.symm) (hP.1.trans hI'.1.symm) rfl) fun ⟨_, P'⟩ _ => ?_
  dsimp only
  rw [mult_eq (c := Mtx.uninit junk 4 1) (hK.2.trans hv.1.symm) hK.1.symm hv.2.symm]

theorem kalman_eq {junk : Nat → XR} {freq : Nat} {incl : Option XR} {c : KalmCfg XR} {a m g : Vec XR} {q : Quat XR}
    (ha : a.sz = 3) (hm : m.sz = 3) (hg : g.sz = 3) (hP : Shp c.P 4 4) :
    NoChk.fusKalman junk freq incl c ⟨some a, some m, some g⟩ q = fusKalman junk freq incl c ⟨some a, some m, some g⟩ q := by
  unfold NoChk.fusKalman fusKalman
  dsimp only
  rw [if_neg (by omega)]
  refine bind_congr_ok (predict_eq hg hP).1 fun ⟨P, q⟩ hpq => ?_
  dsimp only
  replace hpq := (predict_eq hg hP).2 _ _ hpq
  refine bind_congr_ok (toUnit_eq _) fun ⟨_, a'⟩ _ => ?_
  dsimp only
  refine bind_congr_ok (toUnit_eq _) fun ⟨_, m'⟩ _ => ?_
  dsimp only
  refine bind_congr_ok rfl fun z hz => ?_
  refine bind_congr_ok rfl fun qm hqm => ?_
  rw [field_eq (pure_quatOfVec hqm), model_eq field_pure]
  refine bind_congr_ok (correct_eq ?_ ⟨rfl, rfl⟩ hpq) fun _ _ => rfl
  unfold kalmMeas at hz
  iterate 6 obtain ⟨_, _, hz⟩ := bind_ok hz
  cases hz
  exact ⟨rfl, rfl⟩

theorem fromRotMtx_eq {m : Mtx XR} {q : Quat XR} (h : Shp m 3 3) : NoChk.quatFromRotMtx m q = quatFromRotMtx m q := by
  unfold NoChk.quatFromRotMtx quatFromRotMtx
  rw [if_neg (by rw [h.1, h.2]; omega)]

theorem quatInit_eq {junk : Nat → XR} {a m : Vec XR} {q : Quat XR} (ha : a.sz = 3) (hm : m.sz = 3) :
    NoChk.kalmQuatInit junk (some a) (some m) q = kalmQuatInit junk (some a) (some m) q := by
  unfold NoChk.kalmQuatInit kalmQuatInit
  dsimp only
  rw [if_neg (by omega)]
  refine bind_congr_ok (vcross_eq ha hm rfl) fun ⟨_, w⟩ hw => ?_
  dsimp only
  refine bind_congr_ok (vcross_eq (sz_cross hw) ha rfl) fun ⟨_, v⟩ _ => ?_
  dsimp only
  refine bind_congr_ok rfl fun ⟨_, u⟩ _ => ?_
  dsimp only
  refine bind_congr_ok (toUnit_eq _) fun ⟨_, v'⟩ _ => ?_
  dsimp only
  refine bind_congr_ok (toUnit_eq _) fun ⟨_, w'⟩ _ => ?_
  dsimp only
  refine bind_congr_ok (toUnit_eq _) fun ⟨_, u'⟩ _ => ?_
  dsimp only
  refine bind_congr_ok (setCol_eq (show 0 < 3 by omega)) fun ⟨_, x0⟩ h0 => ?_
  dsimp only
  replace h0 := shp_setCol (m := Mtx.uninit junk 3 3) (r := 3) (c := 3) ⟨rfl, rfl⟩ h0
  refine bind_congr_ok (setCol_eq (by rw [h0.2]; omega)) fun ⟨_, x1⟩ h1 => ?_
  dsimp only
  replace h1 := shp_setCol h0 h1
  refine bind_congr_ok (setCol_eq (by rw [h1.2]; omega)) fun ⟨_, x2⟩ h2 => ?_
  dsimp only
  replace h2 := shp_setCol h1 h2
  rw [fromRotMtx_eq h2]

theorem pInit_eq {P : Mtx XR} (h : Shp P 4 4) :
    NoChk.kalmPInit P = kalmPInit P ∧ ∀ rc P' b, kalmPInit P = ok (rc, P', b) → Shp P' 4 4 := by
  have hg : ¬ (P.rows ≠ 4 ∨ P.cols ≠ 4) := by rw [h.1, h.2]; omega
  constructor
  · unfold NoChk.kalmPInit kalmPInit
    rw [if_neg hg]
    exact bind_congr_ok init_identity.1 fun _ _ => rfl
  · intro rc P' b he
    unfold kalmPInit at he
    rw [if_neg hg] at he
    obtain ⟨⟨_, P1⟩, h1, he⟩ := bind_ok he
    cases he
    have := init_identity.2 _ _ h1
    rwa [h.1, h.2] at this

theorem kalman_accepted {junk : Nat → XR} {freq : Nat} {incl : Option XR} {c : KalmCfg XR} {s : Sens3 XR} {q : Quat XR}
    {out : Sens3 XR × Mtx XR × Quat XR} (h : fusKalman junk freq incl c s q = ok (0, out)) :
    ∃ a m g, s = ⟨some a, some m, some g⟩ ∧ a.sz = 3 ∧ m.sz = 3 ∧ g.sz = 3 := by
  obtain ⟨sa, sm, sg⟩ := s
  cases sa with
  | none => exact absurd h (fun h => not_zero_einval h)
  | some a =>
    cases sm with
    | none => exact absurd h (fun h => not_zero_einval h)
    | some m =>
      cases sg with
      | none => exact absurd h (fun h => not_zero_einval h)
      | some g =>
        have hg := passed h
        push Not at hg
        exact ⟨a, m, g, rfl, hg.1, hg.2.1, hg.2.2⟩

end Verif.NoChkL
