import Verif.Lemmas.NoChk4
import Verif.Model.NoChkFus
import Verif.Props.NoChkOrient

/-!
# Lemmas for builds without bounds checks: sensor fusion
-/

set_option linter.unusedSectionVars false

namespace Verif.NoChkL

open Out

section General

variable {R : Type} [CReal R]

theorem vcross_eq {v w c : Vec R} (h1 : v.sz = 3) (h2 : w.sz = 3) (h3 : c.sz = 3) : NoChk.vecCross v w c = vecCross v w c := by
  unfold NoChk.vecCross vecCross
  rw [if_neg (by omega)]

theorem sz_cross {v w c c' : Vec R} {rc : Int} (he : vecCross v w c = ok (rc, c')) : c'.sz = c.sz := by
  unfold vecCross at he
  split at he
  · cases he
    rfl
  · iterate 9 obtain ⟨_, _, he⟩ := bind_ok he
    cases he
    rfl

theorem sz_toUnit {v v' : Vec R} {rc : Int} (he : vecToUnit v = ok (rc, v')) : v'.sz = v.sz := by
  unfold vecToUnit at he
  obtain ⟨n, _, he⟩ := bind_ok he
  split at he
  · obtain ⟨⟨_, w⟩, hw, he⟩ := bind_ok he
    cases he
    exact sz_scalarMult hw
  · obtain ⟨⟨_, w⟩, hw, he⟩ := bind_ok he
    obtain ⟨d, _, he⟩ := bind_ok he
    cases he
    exact (show w.sz = v.sz from sz_init hw)

theorem sensValid_eq (v : Option (Vec R)) : NoChk.sensValid v = sensValid v := by
  unfold NoChk.sensValid sensValid
  cases v with
  | none => rfl
  | some v => simp only [vnorm_eq]

theorem sensMissing_eq (v : Option (Vec R)) : NoChk.sensMissing v = sensMissing v := by
  unfold NoChk.sensMissing sensMissing
  cases v with
  | none => rfl
  | some v => simp only [vnorm_eq]

theorem unitP_eq (v : Option (Vec R)) : NoChk.unitP v = unitP v := by
  unfold NoChk.unitP unitP
  cases v with
  | none => rfl
  | some v => simp only [toUnit_eq]

theorem sz_unitP {v : Option (Vec R)} {u : Vec R} (h : ¬ badSize v = true) (he : unitP v = ok u) : u.sz = 3 := by
  cases v with
  | none => cases he
  | some v =>
    obtain ⟨⟨_, w⟩, hw, he⟩ := bind_ok he
    cases he
    rw [sz_toUnit hw]
    simpa [badSize] using h

theorem pure_quatOfVec {v : Vec R} {q : Quat R} (he : quatOfVec v = ok q) : q.r = lit 0 := by
  unfold quatOfVec at he
  iterate 3 obtain ⟨_, _, he⟩ := bind_ok he
  cases he
  rfl

theorem sz_addAt {v v' : Vec R} {i : Nat} {x : R} (he : addAt v i x = ok v') : v'.sz = v.sz := by
  unfold addAt at he
  obtain ⟨_, _, he⟩ := bind_ok he
  obtain ⟨_, _, he⟩ := bind_ok he
  cases he
  rfl

theorem sz_feedback {freq : Nat} {c : MahnCfg R} {e g fb g' : Vec R} (he : mahnFeedback freq c e g = ok (fb, g')) : g'.sz = g.sz := by
  unfold mahnFeedback at he
  iterate 12 obtain ⟨_, _, he⟩ := bind_ok he
  obtain ⟨g1, h1, he⟩ := bind_ok he
  obtain ⟨g2, h2, he⟩ := bind_ok he
  obtain ⟨g3, h3, he⟩ := bind_ok he
  obtain ⟨g4, h4, he⟩ := bind_ok he
  obtain ⟨g5, h5, he⟩ := bind_ok he
  obtain ⟨g6, h6, he⟩ := bind_ok he
  cases he
  rw [sz_addAt h6, sz_addAt h5, sz_addAt h4, sz_addAt h3, sz_addAt h2, sz_addAt h1]

end General

theorem dt_ok (freq : Nat) : ¬ CReal.lt (lit 1 / CReal.ofNat freq : XR) (lit 0) = true := by
  have h1 : (CReal.ofNat freq : XR) = XR.fin freq := XR.ofNat_eq freq
  rw [h1, XR.lit_eq, XR.lit_eq]
  by_cases h : freq = 0
  · subst h
    have h0 : (XR.fin ((1 : ℚ) : ℝ) / XR.fin ((0 : ℕ) : ℝ)) = XR.pinf := by
      show XR.div _ _ = _
      unfold XR.div XR.infOf
      simp
    rw [h0]
    exact Bool.false_ne_true
  · have : (freq : ℝ) ≠ 0 := by exact_mod_cast h
    rw [XR.fin_div this]
    simp

theorem rot_pure {q b x : Quat XR} (h : b.r = lit 0) : NoChk.quatRot q b x = quatRot q b x := by
  unfold NoChk.quatRot quatRot
  rw [if_neg]
  rw [h, XR.lit_eq, XR.lit_eq]
  simp
  norm_num

theorem crossError_eq {junk : Nat → XR} {q b : Quat XR} {a : Vec XR} (hb : b.r = lit 0) (ha : a.sz = 3) :
    NoChk.fusCrossError junk q b a = fusCrossError junk q b a ∧ ∀ e, fusCrossError junk q b a = ok e → e.sz = 3 := by
  constructor
  · unfold NoChk.fusCrossError fusCrossError
    rw [rot_pure hb]
    dsimp only
    rw [vcross_eq ha rfl rfl]
  · intro e he
    unfold fusCrossError at he
    obtain ⟨⟨_, e'⟩, h', he⟩ := bind_ok he
    cases he
    rw [sz_cross h']
    rfl

theorem earthField_eq {junk : Nat → XR} {incl : Option XR} {q qm : Quat XR} (h : qm.r = lit 0) :
    NoChk.fusEarthField junk incl q qm = fusEarthField junk incl q qm := by
  unfold NoChk.fusEarthField fusEarthField
  rw [rot_pure h]
  cases incl <;> rfl

theorem integrate_eq {freq : Nat} {g : Vec XR} {q : Quat XR} (h : g.sz = 3) : NoChk.fusIntegrate freq g q = fusIntegrate freq g q := by
  unfold NoChk.fusIntegrate fusIntegrate
  rw [fromAngVel_eq (by push Not; exact ⟨h, by simpa using dt_ok freq⟩)]

/-! ### Mahony -/

theorem mahonyImu_eq {junk : Nat → XR} {freq : Nat} {s : Sens XR} {c : MahnCfg XR} {q : Quat XR}
    (h1 : ¬ (badSize s.a = true ∨ s.g.sz ≠ 3 ∨ c.intfb.sz ≠ 3)) (h2 : ¬ quatIsZero q = true) :
    NoChk.fusMahonyImu junk freq s c q = fusMahonyImu junk freq s c q := by
  unfold NoChk.fusMahonyImu fusMahonyImu
  rw [if_neg h1, if_neg h2]
  push Not at h1
  refine bind_congr_ok (sensValid_eq _) fun valid _ => ?_
  by_cases hv : valid = true
  · rw [if_pos hv, if_pos hv]
    refine bind_congr_ok (unitP_eq _) fun a ha => ?_
    have ha' := sz_unitP h1.1 ha
    refine bind_congr_ok (crossError_eq rfl ha').1 fun e _ => ?_
    refine bind_congr_ok rfl fun ⟨fb, g⟩ hg => ?_
    dsimp only
    rw [integrate_eq ((sz_feedback hg).trans h1.2.1)]
  · rw [if_neg hv, if_neg hv, integrate_eq h1.2.1]

theorem mahony_eq {junk : Nat → XR} {freq : Nat} {incl : Option XR} {s : Sens XR} {c : MahnCfg XR} {q : Quat XR}
    (h1 : ¬ (badSize s.a = true ∨ badSize s.m = true ∨ s.g.sz ≠ 3 ∨ c.intfb.sz ≠ 3)) (h2 : ¬ quatIsZero q = true) :
    NoChk.fusMahony junk freq incl s c q = fusMahony junk freq incl s c q := by
  unfold NoChk.fusMahony fusMahony
  rw [if_neg h1, if_neg h2]
  push Not at h1
  obtain ⟨h1a, h1m, h1g, h1c⟩ := h1
  refine bind_congr_ok (sensMissing_eq _) fun missing _ => ?_
  by_cases hm : missing = true
  · rw [if_pos hm, if_pos hm]
    exact mahonyImu_eq (by push Not; exact ⟨h1a, h1g, h1c⟩) h2
  rw [if_neg hm, if_neg hm]
  refine bind_congr_ok (sensValid_eq _) fun valid _ => ?_
  by_cases hv : valid = true
  · rw [if_pos hv, if_pos hv]
    refine bind_congr_ok (unitP_eq _) fun a ha => ?_
    have ha' := sz_unitP h1a ha
    refine bind_congr_ok (unitP_eq _) fun m hm => ?_
    have hm' := sz_unitP h1m hm
    refine bind_congr_ok (crossError_eq rfl ha').1 fun eg heg => ?_
    refine bind_congr_ok rfl fun qm hqm => ?_
    rw [earthField_eq (pure_quatOfVec hqm)]
    dsimp only
    refine bind_congr_ok (crossError_eq rfl hm').1 fun eb heb => ?_
    rw [vadd_eq (((crossError_eq rfl ha').2 _ heg).trans ((crossError_eq rfl hm').2 _ heb).symm) ((crossError_eq rfl ha').2 _ heg)]
    refine bind_congr_ok rfl fun ⟨_, e⟩ _ => ?_
    dsimp only
    refine bind_congr_ok rfl fun ⟨fb, g⟩ hg => ?_
    dsimp only
    rw [integrate_eq ((sz_feedback hg).trans h1g)]
  · rw [if_neg hv, if_neg hv, integrate_eq h1g]

/-! ### Madgwick -/

theorem residual_eq {junk : Nat → XR} {q b : Quat XR} {a : Vec XR} (hb : b.r = lit 0) :
    NoChk.madgResidual junk q b a = madgResidual junk q b a ∧ ∀ f, madgResidual junk q b a = ok f → Shp f 3 1 := by
  constructor
  · unfold NoChk.madgResidual madgResidual
    rw [rot_pure hb]
  · intro f hf
    unfold madgResidual at hf
    iterate 3 obtain ⟨_, _, hf⟩ := bind_ok hf
    cases hf
    exact ⟨rfl, rfl⟩

theorem grad_eq {junk : Nat → XR} {jac : List XR} {f : Mtx XR} (hf : Shp f 3 1) :
    NoChk.madgGrad junk jac f = madgGrad junk jac f := by
  unfold NoChk.madgGrad madgGrad
  refine bind_congr_ok rfl fun ⟨_, jt⟩ hj => ?_
  dsimp only
  have hj' := shp_fromArr (a := Mtx.uninit junk 4 3) (r := 4) (c := 3) ⟨rfl, rfl⟩ hj
  rw [mult_eq (c := Mtx.uninit junk 4 1) (by rw [hj'.2, hf.1]) (by rw [hj'.1]; rfl) (by rw [hf.2]; rfl)]

theorem madgUpdate_eq {freq : Nat} {beta : XR} {g grad : Vec XR} {q : Quat XR} (h : g.sz = 3) :
    NoChk.madgUpdate freq beta g grad q = madgUpdate freq beta g grad q := by
  unfold NoChk.madgUpdate madgUpdate
  dsimp only
  rw [fromAngVel_eq (by push Not; exact ⟨h, by simpa using dt_ok freq⟩)]

theorem madgwickImu_eq {junk : Nat → XR} {freq : Nat} {beta : XR} {s : Sens XR} {q : Quat XR}
    (h1 : ¬ (badSize s.a = true ∨ s.g.sz ≠ 3)) (h2 : ¬ quatIsZero q = true) :
    NoChk.fusMadgwickImu junk freq beta s q = fusMadgwickImu junk freq beta s q := by
  unfold NoChk.fusMadgwickImu fusMadgwickImu
  rw [if_neg h1, if_neg h2]
  push Not at h1
  dsimp only
  refine bind_congr_ok rfl fun ⟨_, gr⟩ _ => ?_
  dsimp only
  refine bind_congr_ok (sensValid_eq _) fun valid _ => ?_
  by_cases hv : valid = true
  · rw [if_pos hv, if_pos hv]
    refine bind_congr_ok (unitP_eq _) fun a ha => ?_
    refine bind_congr_ok (residual_eq rfl).1 fun f hf => ?_
    refine bind_congr_ok (grad_eq ((residual_eq rfl).2 f hf)) fun jtf _ => ?_
    refine bind_congr_ok rfl fun ⟨_, g1⟩ _ => ?_
    dsimp only
    refine bind_congr_ok (toUnit_eq _) fun ⟨_, g2⟩ _ => ?_
    dsimp only
    rw [madgUpdate_eq h1.2]
  · rw [if_neg hv, if_neg hv, madgUpdate_eq h1.2]

theorem madgwick_eq {junk : Nat → XR} {freq : Nat} {incl : Option XR} {beta : XR} {s : Sens XR} {q : Quat XR}
    (h1 : ¬ (badSize s.a = true ∨ badSize s.m = true ∨ s.g.sz ≠ 3)) (h2 : ¬ quatIsZero q = true) :
    NoChk.fusMadgwick junk freq incl beta s q = fusMadgwick junk freq incl beta s q := by
  unfold NoChk.fusMadgwick fusMadgwick
  rw [if_neg h1, if_neg h2]
  push Not at h1
  obtain ⟨h1a, h1m, h1g⟩ := h1
  refine bind_congr_ok (sensMissing_eq _) fun missing _ => ?_
  by_cases hm : missing = true
  · rw [if_pos hm, if_pos hm]
    exact madgwickImu_eq (by push Not; exact ⟨h1a, h1g⟩) h2
  rw [if_neg hm, if_neg hm]
  dsimp only
  refine bind_congr_ok rfl fun ⟨_, gr⟩ _ => ?_
  dsimp only
  refine bind_congr_ok (sensValid_eq _) fun valid _ => ?_
  by_cases hv : valid = true
  · rw [if_pos hv, if_pos hv]
    refine bind_congr_ok (unitP_eq _) fun a ha => ?_
    refine bind_congr_ok (unitP_eq _) fun m hm => ?_
    refine bind_congr_ok (residual_eq rfl).1 fun f hf => ?_
    refine bind_congr_ok (grad_eq ((residual_eq rfl).2 f hf)) fun jg _ => ?_
    refine bind_congr_ok rfl fun qm hqm => ?_
    rw [earthField_eq (pure_quatOfVec hqm)]
    refine bind_congr_ok (residual_eq rfl).1 fun f hf => ?_
    refine bind_congr_ok (grad_eq ((residual_eq rfl).2 f hf)) fun jb _ => ?_
    iterate 12 refine bind_congr_ok rfl fun _ _ => ?_
    refine bind_congr_ok (toUnit_eq _) fun ⟨_, g2⟩ _ => ?_
    dsimp only
    rw [madgUpdate_eq h1g]
  · rw [if_neg hv, if_neg hv, madgUpdate_eq h1g]

/-! ### Complementary -/

theorem attFromAccelmag_eq {junk : Nat → XR} {a m : Vec XR} {t : Attitude XR} (h1 : a.sz = 3) (h2 : m.sz = 3) :
    NoChk.attFromAccelmag junk a m t = attFromAccelmag junk a m t := by
  unfold NoChk.attFromAccelmag attFromAccelmag
  rw [if_neg (by omega)]
  simp only [toUnit_eq, attFromAccel_eq (not_not.mpr h1)]

theorem lerp_eq {qa qb : Quat XR} {t : XR} {qi : Quat XR} (h : ¬ (CReal.lt t (lit 0) || CReal.gt t (lit 1)) = true) :
    NoChk.quatLerp qa qb t qi = quatLerp qa qb t qi := by
  unfold NoChk.quatLerp quatLerp
  rw [if_neg h]

theorem slerp_eq {qa qb : Quat XR} {t : XR} {qi : Quat XR} (h : ¬ (CReal.lt t (lit 0) || CReal.gt t (lit 1)) = true) :
    NoChk.quatSlerp qa qb t qi = quatSlerp qa qb t qi := by
  unfold NoChk.quatSlerp quatSlerp
  rw [if_neg h]

theorem comp_eq {junk : Nat → XR} {freq : Nat} {alpha : XR} {s : Sens XR} {q : Quat XR}
    (h1 : ¬ (badSize s.a = true ∨ badSize s.m = true ∨ s.g.sz ≠ 3 ∨ CReal.lt alpha (lit 0) = true ∨ CReal.gt alpha (lit 1) = true))
    (h2 : ¬ quatIsZero q = true) :
    NoChk.fusComp junk freq alpha s q = fusComp junk freq alpha s q := by
  unfold NoChk.fusComp fusComp
  rw [if_neg h1, if_neg h2]
  push Not at h1
  obtain ⟨h1a, h1m, h1g, h1l, h1u⟩ := h1
  have hl : ¬ (CReal.lt alpha (lit 0) || CReal.gt alpha (lit 1)) = true := by
    rw [Bool.or_eq_true]
    push Not
    exact ⟨h1l, h1u⟩
  dsimp only
  rw [fromAngVel_eq (by push Not; exact ⟨h1g, by simpa using dt_ok freq⟩)]
  refine bind_congr_ok rfl fun ⟨_, qw⟩ _ => ?_
  dsimp only
  refine bind_congr_ok (sensValid_eq _) fun vm _ => ?_
  rw [sensValid_eq]
  obtain ⟨sa, sm, sg⟩ := s
  by_cases hv : vm = true
  · rw [if_pos hv, if_pos hv]
    refine bind_congr_ok rfl fun va _ => ?_
    cases va with
    | false => rfl
    | true =>
      cases sa with
      | none => rfl
      | some a =>
        cases sm with
        | none => rfl
        | some m =>
          dsimp only
          rw [attFromAccelmag_eq (by simpa [badSize] using h1a) (by simpa [badSize] using h1m)]
          refine bind_congr_ok rfl fun ⟨_, att⟩ _ => ?_
          dsimp only
          rw [lerp_eq hl]
  · rw [if_neg hv, if_neg hv]
    rfl

/-! ### AQUA -/

theorem aquaApply_eq {junk : Nat → XR} {dq : Quat XR} {eps t : XR} {q : Quat XR} (h : ¬ (CReal.lt t (lit 0) || CReal.gt t (lit 1)) = true) :
    NoChk.aquaApply junk dq eps t q = aquaApply junk dq eps t q := by
  unfold NoChk.aquaApply aquaApply
  rw [lerp_eq h, slerp_eq h]

theorem aqua_eq {junk : Nat → XR} {freq : Nat} {c : AquaCfg XR} {s : Sens XR} {q : Quat XR}
    (h1 : ¬ (badSize s.a = true ∨ badSize s.m = true ∨ s.g.sz ≠ 3)) (h2 : ¬ quatIsZero q = true)
    (h3 : ¬ (CReal.lt c.alpha (lit 0) || CReal.gt c.alpha (lit 1)) = true)
    (h4 : ¬ (CReal.lt c.beta (lit 0) || CReal.gt c.beta (lit 1)) = true) :
    NoChk.fusAqua junk freq c s q = fusAqua junk freq c s q := by
  unfold NoChk.fusAqua fusAqua
  rw [if_neg h1, if_neg h2]
  push Not at h1
  obtain ⟨h1a, h1m, h1g⟩ := h1
  dsimp only
  refine bind_congr_ok rfl fun ⟨_, g⟩ hg => ?_
  dsimp only
  rw [fromAngVel_eq (by push Not; exact ⟨(sz_scalarMult hg).trans h1g, by simpa using dt_ok freq⟩)]
  refine bind_congr_ok rfl fun ⟨_, q⟩ _ => ?_
  dsimp only
  refine bind_congr_ok (sensValid_eq _) fun valid _ => ?_
  by_cases hv : valid = true
  · rw [if_pos hv, if_pos hv]
    refine bind_congr_ok (unitP_eq _) fun a _ => ?_
    refine bind_congr_ok rfl fun qa hqa => ?_
    rw [rot_pure (pure_quatOfVec hqa), aquaApply_eq h3]
    refine bind_congr_ok (sensValid_eq _) fun vm _ => ?_
    by_cases hm : vm = true
    · rw [if_pos hm, if_pos hm]
      refine bind_congr_ok (unitP_eq _) fun m _ => ?_
      refine bind_congr_ok rfl fun qm hqm => ?_
      rw [rot_pure (pure_quatOfVec hqm), aquaApply_eq h4]
    · rw [if_neg hm, if_neg hm]
  · rw [if_neg hv, if_neg hv]

end Verif.NoChkL
