import Verif.Lemmas.NoChk6

/-!
# Builds without bounds checks: sensor fusion
-/

set_option linter.unusedSectionVars false

namespace Verif

open NoChkL Out

/-- C147. The `init` functions of the filters. -/
theorem nochk_fus_init (freq old : Nat) : SameIfAccepted (ok (fusInit freq old)) (ok (NoChk.fusInit freq old)) := by
  refine sameIf_of_eq fun ⟨out, h⟩ => ?_
  have hg := passed' h
  unfold NoChk.fusInit fusInit
  rw [if_neg hg]

/-- C147. `zsl_fus_mahn_feed`. -/
theorem nochk_fus_mahn_feed (junk : Nat → XR) (freq : Nat) (incl : Option XR) (s : Sens XR) (c : MahnCfg XR) (q : Quat XR) :
    SameIfAccepted (fusMahnFeed junk freq incl s c q) (NoChk.fusMahnFeed junk freq incl s c q) := by
  refine sameIf_of_eq fun ⟨out, h⟩ => ?_
  have hk := passed h
  unfold fusMahnFeed at h
  rw [if_neg hk] at h
  obtain ⟨⟨rc, s', fb, q'⟩, he, h⟩ := bind_ok h
  cases h
  unfold fusMahony at he
  have h1 := passed he
  rw [if_neg h1] at he
  have h2 := passed he
  unfold NoChk.fusMahnFeed fusMahnFeed
  rw [if_neg hk, if_neg hk, mahony_eq h1 h2]

/-- C147. `zsl_fus_madg_feed`. -/
theorem nochk_fus_madg_feed (junk : Nat → XR) (freq : Nat) (incl : Option XR) (beta : XR) (s : Sens XR) (q : Quat XR) :
    SameIfAccepted (fusMadgFeed junk freq incl beta s q) (NoChk.fusMadgFeed junk freq incl beta s q) := by
  refine sameIf_of_eq fun ⟨out, h⟩ => ?_
  have hk := passed h
  unfold fusMadgFeed at h
  rw [if_neg hk] at h
  unfold fusMadgwick at h
  have h1 := passed h
  rw [if_neg h1] at h
  have h2 := passed h
  unfold NoChk.fusMadgFeed fusMadgFeed
  rw [if_neg hk, if_neg hk, madgwick_eq h1 h2]

/-- C147. `zsl_fus_comp_feed`. -/
theorem nochk_fus_comp_feed (junk : Nat → XR) (freq : Nat) (alpha : XR) (s : Sens XR) (q : Quat XR) :
    SameIfAccepted (fusCompFeed junk freq alpha s q) (NoChk.fusCompFeed junk freq alpha s q) := by
  refine sameIf_of_eq fun ⟨out, h⟩ => ?_
  have hk := passed h
  unfold fusCompFeed at h
  rw [if_neg hk] at h
  unfold fusComp at h
  have h1 := passed h
  rw [if_neg h1] at h
  have h2 := passed h
  unfold NoChk.fusCompFeed fusCompFeed
  rw [if_neg hk, if_neg hk, comp_eq h1 h2]

/-- C147. `zsl_fus_saam_feed`. -/
theorem nochk_fus_saam_feed (junk : Nat → XR) (s : Sens XR) (q : Quat XR) :
    SameIfAccepted (fusSaamFeed junk s q) (NoChk.fusSaamFeed junk s q) := by
  refine sameIf_of_eq fun ⟨out, h⟩ => ?_
  obtain ⟨sa, sm, sg⟩ := s
  cases sa with
  | none => cases h
  | some a =>
    unfold fusSaamFeed at h
    dsimp only at h
    have h1 := passed h
    rw [if_neg h1] at h
    cases sm with
    | none => cases h
    | some m =>
      have h2 := passed h
      unfold NoChk.fusSaamFeed fusSaamFeed
      dsimp only
      rw [if_neg h1]
      rw [if_neg h2]
      refine bind_congr_ok (vnorm_eq _) fun nm _ => ?_
      by_cases hm : CReal.lt (CReal.abs nm) (lit 1e-6) = true
      · rw [if_pos hm, if_pos hm]
      rw [if_neg hm, if_neg hm]
      refine bind_congr_ok (vnorm_eq _) fun na _ => ?_
      by_cases ha : CReal.lt (CReal.abs na) (lit 1e-6) = true
      · rw [if_pos ha, if_pos ha]
      rw [if_neg ha, if_neg ha]
      refine bind_congr_ok (toUnit_eq _) fun ⟨_, a'⟩ ha' => ?_
      dsimp only
      refine bind_congr_ok (toUnit_eq _) fun ⟨_, m'⟩ hm' => ?_
      dsimp only
      rw [vdot_eq (by rw [sz_toUnit ha', sz_toUnit hm']; omega)]

theorem in_unit {c : XR} (h : ¬ (CReal.lt c (lit 0) || CReal.gt c (lit 1)) = true) (t : ℝ) (h0 : 0 ≤ t) (h1 : t ≤ 1) :
    ¬ (CReal.lt (c * XR.fin t) (lit 0) || CReal.gt (c * XR.fin t) (lit 1)) = true := by
  cases c with
  | fin x =>
    rw [XR.lit_eq, XR.lit_eq] at h ⊢
    simp at h ⊢
    exact ⟨mul_nonneg h.1 h0, mul_le_one₀ h.2 h0 h1⟩
  | nan => exact Bool.false_ne_true
  | pinf => exact absurd rfl h
  | ninf => exact absurd rfl h

theorem alphaInit_eq {a : Vec XR} {alpha : XR} (ha : a.sz = 3) :
    NoChk.fusAquaAlphaInit (some a) alpha = fusAquaAlphaInit (some a) alpha := by
  unfold NoChk.fusAquaAlphaInit fusAquaAlphaInit
  dsimp only
  rw [if_neg (by omega), vnorm_eq]

theorem alphaInit_in {a : Option (Vec XR)} {alpha alpha' : XR} {b : Bool} (h : ¬ (CReal.lt alpha (lit 0) || CReal.gt alpha (lit 1)) = true)
    (he : fusAquaAlphaInit a alpha = ok (alpha', b)) : ¬ (CReal.lt alpha' (lit 0) || CReal.gt alpha' (lit 1)) = true := by
  cases a with
  | none => cases he
  | some a =>
    unfold fusAquaAlphaInit at he
    dsimp only at he
    split at he
    · cases he
      exact h
    · obtain ⟨n, _, he⟩ := bind_ok he
      generalize CReal.abs (n - lit 9.81) / lit 9.81 = me at he
      split at he
      · cases he
        rw [XR.lit_eq, XR.lit_eq]
        simp
      · split at he
        · rename_i hm
          cases he
          cases me with
          | fin x =>
            rw [XR.lit_eq, XR.lit_eq] at hm
            simp at hm
            have e : (lit 0.2 - XR.fin x) / lit 0.1 = XR.fin ((0.2 - x) / 0.1) := by
              rw [XR.lit_eq, XR.lit_eq]
              simp
              rw [XR.fin_div (by norm_num)]
            rw [e]
            refine in_unit h _ ?_ ?_
            · apply div_nonneg <;> norm_num at hm ⊢ <;> linarith [hm.2]
            · rw [div_le_one (by norm_num)]
              norm_num at hm ⊢
              linarith [hm.1]
          | nan => exact absurd hm (by rw [XR.lit_eq, XR.lit_eq]; exact Bool.false_ne_true)
          | pinf => exact absurd hm (by rw [XR.lit_eq, XR.lit_eq]; exact Bool.false_ne_true)
          | ninf => exact absurd hm (by rw [XR.lit_eq, XR.lit_eq]; exact Bool.false_ne_true)
        · cases he
          exact h

/-- C147. `zsl_fus_aqua_feed`: the gain that the first call computes from the reading is still one that the interpolation accepts. -/
theorem nochk_fus_aqua_feed (junk : Nat → XR) (freq : Nat) (init : Bool) (c : AquaCfg XR) (s : Sens XR) (q : Quat XR) :
    SameIfAccepted (fusAquaFeed junk freq init c s q) (NoChk.fusAquaFeed junk freq init c s q) := by
  refine sameIf_of_eq fun ⟨out, h⟩ => ?_
  have hk := passed h
  unfold fusAquaFeed at h
  rw [if_neg hk] at h
  have hk' := hk
  rw [Bool.or_assoc, Bool.or_eq_true] at hk'
  push Not at hk'
  obtain ⟨ka, kb⟩ := hk'
  have hacc : ¬ (badSize s.a = true ∨ badSize s.m = true ∨ s.g.sz ≠ 3) ∧ ¬ quatIsZero q = true := by
    cases init with
    | true =>
      obtain ⟨⟨al, b⟩, _, h⟩ := bind_ok h
      obtain ⟨⟨rc, s', q'⟩, he, h⟩ := bind_ok h
      cases h
      unfold fusAqua at he
      have h1 := passed he
      rw [if_neg h1] at he
      exact ⟨h1, passed he⟩
    | false =>
      obtain ⟨⟨al, b⟩, _, h⟩ := bind_ok h
      obtain ⟨⟨rc, s', q'⟩, he, h⟩ := bind_ok h
      cases h
      unfold fusAqua at he
      have h1 := passed he
      rw [if_neg h1] at he
      exact ⟨h1, passed he⟩
  unfold NoChk.fusAquaFeed fusAquaFeed
  rw [if_neg hk, if_neg hk]
  cases init with
  | true =>
    refine bind_congr_ok rfl fun ⟨al, b⟩ hal => ?_
    cases hal
    exact bind_congr_ok (aqua_eq hacc.1 hacc.2 ka kb) fun _ _ => rfl
  | false =>
    obtain ⟨sa, sm, sg⟩ := s
    cases sa with
    | none => rfl
    | some a =>
      refine bind_congr_ok (alphaInit_eq ?_) fun ⟨al, b⟩ hal => ?_
      · have := hacc.1
        push Not at this
        simpa [badSize] using this.1
      · dsimp only
        rw [aqua_eq (c := { c with alpha := al }) hacc.1 hacc.2 (alphaInit_in ka hal) kb]

/-- C147. `zsl_fus_kalm_feed`, with a covariance of the documented shape 4 × 4. What is missing: the shape of the
covariance is not part of what the feed checks, so calls with other shapes are accepted as well (`nochk_kalm_feed_fails`). -/
theorem nochk_fus_kalm_feed_partial (junk : Nat → XR) (freq : Nat) (incl : Option XR) (s : Sens3 XR) (c : KalmCfg XR) (q : Quat XR)
    (started : Bool) (hr : c.P.rows = 4) (hc : c.P.cols = 4) :
    SameIfAccepted (fusKalmFeed junk freq incl s c q started) (NoChk.fusKalmFeed junk freq incl s c q started) := by
  refine sameIf_of_eq fun ⟨out, h⟩ => ?_
  have hP : Shp c.P 4 4 := ⟨hr, hc⟩
  have hk := passed h
  unfold fusKalmFeed at h
  rw [if_neg hk] at h
  unfold NoChk.fusKalmFeed fusKalmFeed
  rw [if_neg hk, if_neg hk]
  cases started with
  | true =>
    obtain ⟨⟨rc, s', P', q'⟩, he, h⟩ := bind_ok h
    cases h
    obtain ⟨a, m, g, rfl, ha, hm, hg⟩ := kalman_accepted he
    exact bind_congr_ok (kalman_eq ha hm hg hP) fun _ _ => rfl
  | false =>
    obtain ⟨⟨_, q1, b1⟩, _, h⟩ := bind_ok h
    obtain ⟨⟨_, P1, b2⟩, hp1, h⟩ := bind_ok h
    obtain ⟨⟨rc, s', P', q'⟩, he, h⟩ := bind_ok h
    cases h
    obtain ⟨a, m, g, rfl, ha, hm, hg⟩ := kalman_accepted he
    refine bind_congr_ok (quatInit_eq ha hm) fun ⟨_, q1, b1⟩ _ => ?_
    dsimp only
    refine bind_congr_ok (pInit_eq hP).1 fun ⟨_, P1, b2⟩ hp1 => ?_
    dsimp only
    exact bind_congr_ok (kalman_eq ha hm hg ((pInit_eq hP).2 _ _ _ hp1)) fun _ _ => rfl

end Verif
