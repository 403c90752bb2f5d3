import Verif.Props.NoChkFus2
import Verif.Props.NoChkStat
import Verif.Props.NoChkOrient
import Verif.Props.Calib3
import Verif.Props.Safe4
import Verif.Props.Safe8

/-!
# Builds without bounds checks: calibration
-/

set_option linter.unusedSectionVars false

namespace Verif

open NoChkL Out

section General

variable {R : Type} [CReal R]

theorem calRotMtx_eq {junk : Nat → R} {v : Vec R} {m : Mtx R} {vRot : Vec R} (hg : ¬ (v.sz ≠ 3 ∨ vRot.sz ≠ 3 ∨ m.rows ≠ 3 ∨ m.cols ≠ 3)) :
    NoChk.calRotMtx junk v m vRot = calRotMtx junk v m vRot := by
  unfold NoChk.calRotMtx calRotMtx
  rw [if_neg hg]
  push Not at hg
  refine bind_congr_ok rfl fun ⟨_, vm⟩ h1 => ?_
  dsimp only
  replace h1 := shp_fromArr (a := Mtx.uninit junk 3 1) (r := 3) (c := 1) ⟨rfl, rfl⟩ h1
  rw [mult_eq (c := Mtx.uninit junk 3 1) (by rw [hg.2.2.2, h1.1]) hg.2.2.1.symm h1.2.symm]

/-- C147. `zsl_fus_cal_rot_mtx`. -/
theorem nochk_cal_rot_mtx (junk : Nat → R) (v : Vec R) (m : Mtx R) (vRot : Vec R) :
    SameIfAccepted (calRotMtx junk v m vRot) (NoChk.calRotMtx junk v m vRot) :=
  sameIf_of_eq fun ⟨_, h⟩ => calRotMtx_eq (passed h)

theorem shp_toRotMtx {q : Quat R} {m m' : Mtx R} {rc : Int} {r c : Nat} (h : Shp m r c) (he : quatToRotMtx q m = ok (rc, m')) : Shp m' r c := by
  unfold quatToRotMtx at he
  split at he
  · cases he
    exact h
  · obtain ⟨⟨_, m1⟩, h1, he⟩ := bind_ok he
    obtain ⟨⟨_, m2⟩, h2, he⟩ := bind_ok he
    obtain ⟨⟨_, m3⟩, h3, he⟩ := bind_ok he
    obtain ⟨⟨_, m4⟩, h4, he⟩ := bind_ok he
    obtain ⟨⟨_, m5⟩, h5, he⟩ := bind_ok he
    obtain ⟨⟨_, m6⟩, h6, he⟩ := bind_ok he
    obtain ⟨⟨_, m7⟩, h7, he⟩ := bind_ok he
    obtain ⟨⟨_, m8⟩, h8, he⟩ := bind_ok he
    obtain ⟨⟨_, m9⟩, h9, he⟩ := bind_ok he
    cases he
    exact shp_set (shp_set (shp_set (shp_set (shp_set (shp_set (shp_set (shp_set (shp_set h h1) h2) h3) h4) h5) h6) h7) h8) h9

/-- C147. `zsl_fus_cal_rot_axis_angle`. -/
theorem nochk_cal_rot_axis_angle (junk : Nat → R) (v a : Vec R) (b : R) (vRot : Vec R) :
    SameIfAccepted (calRotAxisAngle junk v a b vRot) (NoChk.calRotAxisAngle junk v a b vRot) := by
  refine sameIf_of_eq fun ⟨out, h⟩ => ?_
  have hg := passed h
  unfold NoChk.calRotAxisAngle calRotAxisAngle
  rw [if_neg hg]
  push Not at hg
  have ha : NoChk.quatFromAxisAngle junk a b (quatJunk junk) = quatFromAxisAngle junk a b (quatJunk junk) := by
    unfold NoChk.quatFromAxisAngle quatFromAxisAngle
    rw [if_neg (not_not.2 hg.2.2)]
  refine bind_congr_ok ha fun ⟨_, q⟩ _ => ?_
  dsimp only
  refine bind_congr_ok (toRotMtx_eq (m := Mtx.uninit junk 3 3) (by push Not; exact ⟨rfl, rfl⟩)) fun ⟨_, m⟩ hm => ?_
  dsimp only
  replace hm := shp_toRotMtx (m := Mtx.uninit junk 3 3) (r := 3) (c := 3) ⟨rfl, rfl⟩ hm
  rw [calRotMtx_eq (by push Not; exact ⟨hg.1, hg.2.1, hm.1, hm.2⟩)]

/-- C147. `zsl_fus_cal_corr_vec`. -/
theorem nochk_cal_corr_vec (junk : Nat → R) (v : Vec R) (K : Mtx R) (b vOut : Vec R) :
    SameIfAccepted (calCorrVec junk v K b vOut) (NoChk.calCorrVec junk v K b vOut) := by
  refine sameIf_of_eq fun ⟨out, h⟩ => ?_
  have hg := passed h
  unfold NoChk.calCorrVec calCorrVec
  rw [if_neg hg]
  push Not at hg
  by_cases h0 : v.sz = 0
  · rw [if_pos h0, if_pos h0]
  rw [if_neg h0, if_neg h0, vadd_eq (x := Vec.uninit junk v.sz) hg.2.2.2 rfl]
  refine bind_congr_ok rfl fun ⟨_, vb⟩ _ => ?_
  dsimp only
  refine bind_congr_ok rfl fun ⟨_, VB⟩ hV => ?_
  dsimp only
  replace hV := shp_fromArr (a := Mtx.uninit junk v.sz 1) (r := v.sz) (c := 1) ⟨rfl, rfl⟩ hV
  rw [mult_eq (c := Mtx.uninit junk v.sz 1) (by rw [hV.1]; exact hg.2.2.1.symm) hg.2.1 hV.2.symm]

/-! ### Magnetometer calibration by fitting -/

theorem calRow_eq {junk : Nat → R} {m : Mtx R} {j : Nat} (h : j < m.rows) : NoChk.calRow junk m j = calRow junk m j := by
  unfold NoChk.calRow calRow
  rw [getRow_eq h]

theorem sz_calRow {junk : Nat → R} {m : Mtx R} {j : Nat} {v : Vec R} (h : calRow junk m j = ok v) : v.sz = 3 := by
  unfold calRow at h
  obtain ⟨_, _, h⟩ := bind_ok h
  cases h
  rfl

theorem calFShp_eq {junk : Nat → R} {H b : Vec R} (h1 : H.sz = 3) (h2 : b.sz = 3) : NoChk.calFShp junk H b = calFShp junk H b := by
  unfold NoChk.calFShp calFShp
  rw [vadd_eq (h1.trans h2.symm) h1]
  exact bind_congr_ok rfl fun _ _ => vnorm_eq _

theorem calFElli_eq {junk : Nat → R} {H : Vec R} {g : List R} : NoChk.calFElli junk H g = calFElli junk H g := by
  unfold NoChk.calFElli calFElli
  iterate 7 refine bind_congr_ok rfl fun _ _ => ?_
  refine bind_congr_ok (mult_eq (c := Mtx.uninit junk 3 1) rfl rfl rfl) fun ⟨_, _⟩ _ => ?_
  exact bind_congr_ok rfl fun _ _ => vnorm_eq _

theorem calCentre_eq {fuel : Nat} {extra : List R} {junk : Nat → R} {m : Mtx R} {b : Vec R} (hm : m.cols = 3) :
    NoChk.calCentre fuel extra junk m b = calCentre fuel extra junk m b := by
  unfold NoChk.calCentre calCentre
  refine bind_congr_ok (forN_congr_inv (fun _ _ => True) trivial (fun i hi t _ => ?_) fun _ _ _ _ _ _ => trivial).1 fun _ _ => rfl
  exact bind_congr_ok (getCol_eq (by omega)) fun _ _ => rfl

theorem shp_damp {n : Nat} {l : R} {a idx idx' : Mtx R} {r c : Nat} (h : Shp idx r c) (he : calDamp n l a idx = ok idx') : Shp idx' r c := by
  unfold calDamp at he
  obtain ⟨d, _, he⟩ := bind_ok he
  cases he
  exact h

theorem calTau_eq {junk : Nat → R} {n : Nat} {l : R} {J idx : Mtx R} {r : R} (hJ : Shp J 1 n) (hi : Shp idx n n) :
    NoChk.calTau junk n l J idx r = calTau junk n l J idx r ∧
      ∀ idx' t, calTau junk n l J idx r = ok (idx', t) → Shp idx' n n := by
  have hD : ∀ (x y : Mtx R), NoChk.mtxAddD x y = NoChk.mtxBinaryOpD x y .add := fun _ _ => rfl
  have hD' : ∀ (x y : Mtx R), mtxAddD x y = mtxBinaryOpD x y .add := fun _ _ => rfl
  constructor
  · unfold NoChk.calTau calTau
    refine bind_congr_ok (trans_eq (b := Mtx.uninit junk n 1) hJ.1 hJ.2) fun ⟨_, Jt⟩ hJt => ?_
    dsimp only
    replace hJt := shp_trans (b := Mtx.uninit junk n 1) (r := n) (c := 1) ⟨rfl, rfl⟩ hJt
    refine bind_congr_ok (mult_eq (c := Mtx.uninit junk n n) (hJt.2.trans hJ.1.symm) hJt.1.symm hJ.2.symm) fun ⟨_, JJ⟩ hJJ => ?_
    dsimp only
    replace hJJ := shp_mult (c := Mtx.uninit junk n n) (r := n) (k := n) ⟨rfl, rfl⟩ hJJ
    refine bind_congr_ok rfl fun idx1 h1 => ?_
    replace h1 := shp_damp hi h1
    refine bind_congr_ok (by rw [hD, hD', binaryOpD_eq (hJJ.1.trans h1.1.symm) (hJJ.2.trans h1.2.symm)]) fun ⟨_, S⟩ hS => ?_
    dsimp only
    replace hS := shp_binaryOpD hJJ hS
    refine bind_congr_ok (inv_eq (h1.1.trans hS.1.symm) (h1.2.trans hS.2.symm)) fun ⟨_, idx2⟩ h2 => ?_
    dsimp only
    replace h2 := shp_inv (h1.1.trans hS.1.symm) (h1.2.trans hS.2.symm) h2
    rw [h1.1, h1.2] at h2
    rw [mult_eq (c := Mtx.uninit junk n 1) (h2.2.trans hJt.1.symm) h2.1.symm hJt.2.symm]
  · intro idx' t h
    unfold calTau at h
    obtain ⟨_, _, h⟩ := bind_ok h
    obtain ⟨⟨_, JJ⟩, hJJ, h⟩ := bind_ok h
    replace hJJ := shp_mult (c := Mtx.uninit junk n n) (r := n) (k := n) ⟨rfl, rfl⟩ hJJ
    obtain ⟨idx1, h1, h⟩ := bind_ok h
    replace h1 := shp_damp hi h1
    obtain ⟨⟨_, S⟩, hS, h⟩ := bind_ok h
    replace hS := shp_binaryOpD hJJ hS
    obtain ⟨⟨_, idx2⟩, h2, h⟩ := bind_ok h
    replace h2 := shp_inv (h1.1.trans hS.1.symm) (h1.2.trans hS.2.symm) h2
    rw [h1.1, h1.2] at h2
    obtain ⟨_, _, h⟩ := bind_ok h
    obtain ⟨_, _, h⟩ := bind_ok h
    cases h
    exact h2

theorem calJacShp_eq {junk : Nat → R} {m : Mtx R} {b : Vec R} (hb : b.sz = 3) : NoChk.calJacShp junk m b = calJacShp junk m b := by
  unfold NoChk.calJacShp calJacShp
  refine (forN_congr_inv (fun _ _ => True) trivial (fun i hi t _ => ?_) fun _ _ _ _ _ _ => trivial).1
  refine bind_congr_ok (calRow_eq hi) fun H hH => ?_
  rw [calFShp_eq (sz_calRow hH) hb]

theorem calJacElli_eq {junk : Nat → R} {m : Mtx R} {g b : List R} : NoChk.calJacElli junk m g b = calJacElli junk m g b := by
  unfold NoChk.calJacElli calJacElli
  refine (forN_congr_inv (fun _ _ => True) trivial (fun i hi t _ => ?_) fun _ _ _ _ _ _ => trivial).1
  refine bind_congr_ok (calRow_eq hi) fun H hH => ?_
  rw [calFElli_eq]

theorem calSphere_eq {junk : Nat → R} {m : Mtx R} {mu : R} {j : Nat} {s : CalFit R} (hj : j < m.rows) (hs : Shp s.idx 4 4)
    (hn : j < szSub m.rows 1 → j + 1 < m.rows) :
    NoChk.calSphere junk m mu j s = calSphere junk m mu j s ∧ ∀ s', calSphere junk m mu j s = ok s' → Shp s'.idx 4 4 := by
  constructor
  · unfold NoChk.calSphere calSphere
    refine bind_congr_ok (calJacShp_eq rfl) fun J _ => ?_
    refine bind_congr_ok (calRow_eq hj) fun H hH => ?_
    refine bind_congr_ok (calFShp_eq (sz_calRow hH) rfl) fun f _ => ?_
    refine bind_congr_ok (calTau_eq ⟨rfl, rfl⟩ hs).1 fun ⟨idx, t⟩ _ => ?_
    dsimp only
    iterate 10 refine bind_congr_ok rfl fun _ _ => ?_
    by_cases hlt : j < szSub m.rows 1
    · rw [if_pos hlt, if_pos hlt]
      refine bind_congr_ok (calRow_eq (hn hlt)) fun H hH => ?_
      rw [calFShp_eq (sz_calRow hH) rfl]
    · rw [if_neg hlt, if_neg hlt]
  · intro s' h
    unfold calSphere at h
    iterate 3 obtain ⟨_, _, h⟩ := bind_ok h
    obtain ⟨⟨idx, t⟩, hi, h⟩ := bind_ok h
    replace hi := (calTau_eq ⟨rfl, rfl⟩ hs).2 _ _ hi
    iterate 10 obtain ⟨_, _, h⟩ := bind_ok h
    split at h
    · iterate 2 obtain ⟨_, _, h⟩ := bind_ok h
      cases h
      exact hi
    · cases h
      exact hi

theorem calEllipsoid_eq {junk : Nat → R} {m : Mtx R} {mu : R} {b : List R} {j : Nat} {s : CalFit R} (hj : j < m.rows) (hs : Shp s.idx 9 9)
    (hn : j < szSub m.rows 1 → j + 1 < m.rows) :
    NoChk.calEllipsoid junk m mu b j s = calEllipsoid junk m mu b j s ∧ ∀ s', calEllipsoid junk m mu b j s = ok s' → Shp s'.idx 9 9 := by
  constructor
  · unfold NoChk.calEllipsoid calEllipsoid
    refine bind_congr_ok calJacElli_eq fun J _ => ?_
    refine bind_congr_ok (calRow_eq hj) fun H hH => ?_
    refine bind_congr_ok calFElli_eq fun f _ => ?_
    refine bind_congr_ok (calTau_eq ⟨rfl, rfl⟩ hs).1 fun ⟨idx, t⟩ _ => ?_
    dsimp only
    refine bind_congr_ok rfl fun _ _ => ?_
    by_cases hlt : j < szSub m.rows 1
    · rw [if_pos hlt, if_pos hlt]
      refine bind_congr_ok (calRow_eq (hn hlt)) fun H hH => ?_
      rw [calFElli_eq]
    · rw [if_neg hlt, if_neg hlt]
  · intro s' h
    unfold calEllipsoid at h
    iterate 3 obtain ⟨_, _, h⟩ := bind_ok h
    obtain ⟨⟨idx, t⟩, hi, h⟩ := bind_ok h
    replace hi := (calTau_eq ⟨rfl, rfl⟩ hs).2 _ _ hi
    obtain ⟨_, _, h⟩ := bind_ok h
    split at h
    · iterate 2 obtain ⟨_, _, h⟩ := bind_ok h
      cases h
      exact hi
    · cases h
      exact hi

/-- C147. `zsl_fus_cal_magn`. -/
theorem nochk_cal_magn (fuel : Nat) (extra : List R) (junk : Nat → R) (m : Mtx R) (l mu : R) (K : Mtx R) (b : Vec R) :
    SameIfAccepted (calMagn fuel extra junk m l mu K b) (NoChk.calMagn fuel extra junk m l mu K b) := by
  refine sameIf_of_eq fun ⟨out, h⟩ => ?_
  have hg := passed h
  unfold NoChk.calMagn calMagn
  rw [if_neg hg]
  push Not at hg
  by_cases h0 : m.rows = 0
  · rw [if_pos h0, if_pos h0]
  have hn : ∀ j, j < szSub m.rows 1 → j + 1 < m.rows := by
    intro j hj
    rw [szSub_le (by omega)] at hj
    omega
  rw [if_neg h0, if_neg h0]
  refine bind_congr_ok (calCentre_eq hg.1) fun ⟨d, mean⟩ _ => ?_
  dsimp only
  refine bind_congr_ok (init_identity (m := Mtx.uninit junk 4 4)).1 fun ⟨_, idx⟩ hi => ?_
  dsimp only
  replace hi : Shp idx 4 4 := (init_identity (m := Mtx.uninit junk 4 4)).2 _ _ hi
  refine bind_congr_ok (forN_congr_inv (fun _ s => Shp s.idx 4 4) hi (fun j hj s hs => (calSphere_eq hj hs (hn j)).1)
    fun j hj s s' hs he => (calSphere_eq hj hs (hn j)).2 _ he).1 fun s _ => ?_
  refine bind_congr_ok init_identity.1 fun ⟨_, K'⟩ _ => ?_
  dsimp only
  iterate 3 refine bind_congr_ok rfl fun _ _ => ?_
  refine bind_congr_ok (init_identity (m := Mtx.uninit junk 9 9)).1 fun ⟨_, idx⟩ hi => ?_
  dsimp only
  replace hi : Shp idx 9 9 := (init_identity (m := Mtx.uninit junk 9 9)).2 _ _ hi
  exact bind_congr_ok (forN_congr_inv (fun _ s => Shp s.idx 9 9) hi (fun j hj s hs => (calEllipsoid_eq hj hs (hn j)).1)
    fun j hj s s' hs he => (calEllipsoid_eq hj hs (hn j)).2 _ he).1 fun s _ => rfl

end General

/-! ### The gain searches

The searches ignore the codes of the feeds, and a feed that the checks refuse (attitude zero, frequency zero) runs without them. The result
is the first candidate in both builds; what is to be shown is that these feeds stay within the arrays. -/

theorem nochk_mahony_safe {junk : Nat → XR} {f : Nat} {incl : Option XR} {s : Sens XR} {c : MahnCfg XR} {q : Quat XR} (h : s.WF) (hc : c.intfb.WF)
    (ba : badSize s.a = false) (bm : badSize s.m = false) (bg : s.g.sz = 3) (bc : c.intfb.sz = 3) :
    (NoChk.fusMahony junk f incl s c q).sat fun p => s.Like p.2.1 ∧ c.intfb.Like p.2.2.1 := by
  unfold NoChk.fusMahony
  rw [sensMissing_eq]
  refine (sensMissing_safe s.m h.2.1).bind fun ms hms => ?_
  split
  · unfold NoChk.fusMahonyImu
    rw [sensValid_eq]
    refine (sensValid_safe s.a h.1).bind fun v hv => ?_
    split
    · rw [unitP_eq]
      refine (unitP_safe s.a h.1 ba (hv ‹_›)).bind fun a ⟨la, a3, aw⟩ => ?_
      rw [(crossError_eq rfl a3).1]
      refine (crossError_safe junk q quatUp a aw).bind fun e ⟨_, _, he⟩ => ?_
      refine (mahnFeedback_safe f c e s.g (hc.three bc) he (h.2.2.three bg)).bind fun ⟨fb, g⟩ ⟨l1, l2⟩ => ?_
      dsimp only at l1 l2 ⊢
      rw [integrate_eq (l2.1.trans bg)]
      refine (integrate_safe f g q (l2.wf h.2.2)).bind fun q' _ => ?_
      exact satp ⟨⟨la, optLike.refl _, l2⟩, l1⟩
    · rw [integrate_eq bg]
      refine (integrate_safe f s.g q h.2.2).bind fun q' _ => ?_
      exact satp ⟨.refl _, .refl _⟩
  rw [sensValid_eq]
  refine (sensValid_safe s.a h.1).bind fun v hv => ?_
  split
  · rw [unitP_eq, unitP_eq]
    refine (unitP_safe s.a h.1 ba (hv ‹_›)).bind fun a ⟨la, a3, aw⟩ => ?_
    refine (unitP_safe s.m h.2.1 bm (hms (by simpa using ‹¬ ms = true›))).bind fun m ⟨lm, m3, mw⟩ => ?_
    rw [(crossError_eq rfl a3).1]
    refine (crossError_safe junk q quatUp a aw).bind fun eg ⟨g1, g2, _⟩ => ?_
    refine (quatOfVec_safe m (mw.three m3)).bind fun qm _ => ?_
    dsimp only
    rw [(crossError_eq rfl m3).1]
    refine (crossError_safe junk q _ m mw).bind fun eb ⟨b1, b2, _⟩ => ?_
    rw [vadd_eq (g1.trans b1.symm) g1]
    refine (vec_add_safe eg eb _ g2 b2 (Vec.wf_uninit junk 3)).bind fun ⟨_, e⟩ l => ?_
    refine (mahnFeedback_safe f c e s.g (hc.three bc) (l.three (Vec.wf_uninit junk 3) rfl) (h.2.2.three bg)).bind fun ⟨fb, g⟩ ⟨l1, l2⟩ => ?_
    dsimp only at l1 l2 ⊢
    rw [integrate_eq (l2.1.trans bg)]
    refine (integrate_safe f g q (l2.wf h.2.2)).bind fun q' _ => ?_
    exact satp ⟨⟨la, lm, l2⟩, l1⟩
  · rw [integrate_eq bg]
    refine (integrate_safe f s.g q h.2.2).bind fun q' _ => ?_
    exact satp ⟨.refl _, .refl _⟩

theorem residual_shp {junk : Nat → XR} {q b : Quat XR} {a : Vec XR} (hb : b.r = lit 0) (h : 3 ≤ a.data.length) :
    (madgResidual junk q b a).sat fun f => f.WF ∧ Shp f 3 1 := by
  obtain ⟨f, hf, w⟩ := residual_safe junk q b a h
  exact ⟨f, hf, w, (residual_eq hb).2 f hf⟩

theorem nochk_madgwick_safe {junk : Nat → XR} {f : Nat} {incl : Option XR} {beta : XR} {s : Sens XR} {q : Quat XR} (h : s.WF)
    (ba : badSize s.a = false) (bm : badSize s.m = false) (bg : s.g.sz = 3) :
    (NoChk.fusMadgwick junk f incl beta s q).sat fun p => s.Like p.2.1 := by
  unfold NoChk.fusMadgwick
  rw [sensMissing_eq]
  refine (sensMissing_safe s.m h.2.1).bind fun ms hms => ?_
  split
  · unfold NoChk.fusMadgwickImu
    dsimp only
    refine (grad0_safe junk).bind fun ⟨_, gr⟩ ⟨r1, r2⟩ => ?_
    dsimp only at r1 r2 ⊢
    rw [sensValid_eq]
    refine (sensValid_safe s.a h.1).bind fun v hv => ?_
    split
    · rw [unitP_eq]
      refine (unitP_safe s.a h.1 ba (hv ‹_›)).bind fun a ⟨la, a3, aw⟩ => ?_
      rw [(residual_eq rfl).1]
      refine (residual_shp rfl (aw.three a3)).bind fun rs ⟨hrs, hsh⟩ => ?_
      rw [grad_eq hsh]
      refine (grad_safe junk (madgJacG _) rs (by simp [madgJacG]) hrs).bind fun jtf hj => ?_
      refine (vec_from_arr_safe gr jtf.data (by simp [Vec.WF, r1, r2]) (by omega)).bind fun ⟨_, g1⟩ l1 => ?_
      rw [toUnit_eq]
      refine (vec_to_unit_safe g1 (l1.wf (by simp [Vec.WF, r1, r2])) (by have := l1.1; dsimp only at this; omega)).bind fun ⟨_, g2⟩ l2 => ?_
      rw [madgUpdate_eq bg]
      refine (madgUpdate_safe f beta s.g g2 _ h.2.2 (by have := (l1.trans l2).2; dsimp only at this; omega)).bind fun q' _ => ?_
      exact satp ⟨la, optLike.refl _, .refl _⟩
    · rw [madgUpdate_eq bg]
      refine (madgUpdate_safe f beta s.g gr _ h.2.2 (by omega)).bind fun q' _ => ?_
      exact satp (.refl _)
  dsimp only
  refine (grad0_safe junk).bind fun ⟨_, gr⟩ ⟨r1, r2⟩ => ?_
  dsimp only at r1 r2 ⊢
  rw [sensValid_eq]
  refine (sensValid_safe s.a h.1).bind fun v hv => ?_
  split
  · rw [unitP_eq, unitP_eq]
    refine (unitP_safe s.a h.1 ba (hv ‹_›)).bind fun a ⟨la, a3, aw⟩ => ?_
    refine (unitP_safe s.m h.2.1 bm (hms (by simpa using ‹¬ ms = true›))).bind fun m ⟨lm, m3, mw⟩ => ?_
    rw [(residual_eq rfl).1]
    refine (residual_shp rfl (aw.three a3)).bind fun rs ⟨hrs, hsh⟩ => ?_
    rw [grad_eq hsh]
    refine (grad_safe junk (madgJacG _) rs (by simp [madgJacG]) hrs).bind fun jg hj => ?_
    refine (quatOfVec_safe m (mw.three m3)).bind fun qm _ => ?_
    rw [(residual_eq rfl).1]
    refine (residual_shp rfl (mw.three m3)).bind fun rb ⟨hrb, hshb⟩ => ?_
    rw [grad_eq hshb]
    refine (grad_safe junk (madgJacB _ _ _) rb (by simp [madgJacB]) hrb).bind fun jb hjb => ?_
    rw [rd_lt (by omega), ok_bind, rd_lt (by omega), ok_bind, rd_lt (by omega), ok_bind, rd_lt (by omega), ok_bind,
      rd_lt (by omega), ok_bind, rd_lt (by omega), ok_bind, rd_lt (by omega), ok_bind, rd_lt (by omega), ok_bind,
      wr_lt _ (by omega), ok_bind, wr_lt _ (by simp; omega), ok_bind, wr_lt _ (by simp; omega), ok_bind, wr_lt _ (by simp; omega), ok_bind,
      toUnit_eq]
    refine (vec_to_unit_safe _ (by simp [Vec.WF, r1, r2]) (by dsimp only; omega)).bind fun ⟨_, g2⟩ l2 => ?_
    rw [madgUpdate_eq bg]
    refine (madgUpdate_safe f beta s.g g2 _ h.2.2 (by have := l2.2; simp at this; omega)).bind fun q' _ => ?_
    exact satp ⟨la, lm, .refl _⟩
  · rw [madgUpdate_eq bg]
    refine (madgUpdate_safe f beta s.g gr _ h.2.2 (by omega)).bind fun q' _ => ?_
    exact satp (.refl _)

theorem getRow_len {R : Type} [CReal R] {m : Mtx R} {i : Nat} {v v' : List R} {rc : Int} (h : mtxGetRow m i v = ok (rc, v')) : v'.length = v.length := by
  unfold mtxGetRow at h
  obtain ⟨c, hc, h⟩ := bind_ok h
  have := (forRet_congr_inv (fun _ w => w.length = v.length) (fun p => p.2.length = v.length) rfl (fun _ _ _ _ => rfl) (by
    intro j _ t ht c hc
    obtain ⟨⟨rc, x⟩, _, hc⟩ := bind_ok hc
    dsimp only at hc
    split at hc
    · cases hc
      exact ht
    · obtain ⟨w, hw, hc⟩ := bind_ok hc
      cases hc
      by_cases hj : j < t.length
      · rw [wr_lt _ hj] at hw
        cases hw
        show (t.set j x).length = v.length
        rw [List.length_set, ht]
      · unfold wr at hw
        rw [if_neg hj] at hw
        cases hw)).2 c hc
  cases c with
  | ret r =>
    cases h
    exact this
  | next w =>
    cases h
    exact this

theorem forN_step {σ : Type} {n : Nat} {f : Nat → σ → Out σ} {s t : σ} (h : forN n f s = ok t) : ∀ i < n, ∃ u v, f i u = ok v := by
  induction n generalizing t with
  | zero => omega
  | succ n ih =>
    rw [forN_succ] at h
    obtain ⟨u, hu, h⟩ := bind_ok h
    intro i hi
    by_cases hin : i < n
    · exact ih hu i hin
    · obtain rfl : i = n := by omega
      exact ⟨u, t, h⟩

/-- The rows of a data matrix can be read. -/
def RowsOk {R : Type} [CReal R] (junk : Nat → R) (m : Mtx R) (n : Nat) : Prop := ∀ j < n, ∃ v, calRow junk m j = ok v ∧ v.sz = 3 ∧ v.WF

theorem calRow_wf {R : Type} [CReal R] {junk : Nat → R} {m : Mtx R} {j : Nat} {v : Vec R} (h : calRow junk m j = ok v) : v.sz = 3 ∧ v.WF := by
  unfold calRow at h
  obtain ⟨⟨_, d⟩, hd, h⟩ := bind_ok h
  cases h
  refine ⟨rfl, ?_⟩
  have := getRow_len hd
  show 3 ≤ d.length
  rw [this]
  simp [junkArr]

theorem calTilt_safe {junk : Nat → XR} {q : Quat XR} {av : Vec XR} {x y : XR} (h : av.WF) (h3 : av.sz = 3) :
    (NoChk.calTilt junk q av x y).sat fun _ => True := by
  unfold NoChk.calTilt
  dsimp only
  rw [attFromAccel_eq (not_not.2 h3)]
  exact (att_from_accel_safe junk av h _).bind fun _ _ => satp trivial

/-- C147. On a reading of three components the tilt that the calibration accumulates is the same with and without the checks. -/
theorem calTilt_nochk {junk : Nat → XR} {q : Quat XR} {av : Vec XR} {x y : XR} (h3 : av.sz = 3) :
    NoChk.calTilt junk q av x y = Verif.calTilt junk q av x y := by
  unfold NoChk.calTilt Verif.calTilt
  dsimp only
  rw [attFromAccel_eq (not_not.2 h3)]

theorem calMadgError_form {junk : Nat → XR} {f : Nat} {incl : Option XR} {g a m : Mtx XR} {beta St : XR}
    (h : calMadgError junk f incl g a m beta = ok St) :
    (∃ x y, St = calTotal a.rows x y) ∧ RowsOk junk g a.rows ∧ RowsOk junk a a.rows ∧ RowsOk junk m a.rows := by
  unfold calMadgError at h
  obtain ⟨s, hs, h⟩ := bind_ok h
  cases h
  have hst := forN_step hs
  refine ⟨⟨_, _, rfl⟩, fun j hj => ?_, fun j hj => ?_, fun j hj => ?_⟩ <;> obtain ⟨u, v, hj⟩ := hst j hj <;>
    obtain ⟨v1, h1, hj⟩ := bind_ok hj <;> obtain ⟨v2, h2, hj⟩ := bind_ok hj <;> obtain ⟨v3, h3, hj⟩ := bind_ok hj
  · exact ⟨v1, h1, calRow_wf h1⟩
  · exact ⟨v2, h2, calRow_wf h2⟩
  · exact ⟨v3, h3, calRow_wf h3⟩

theorem calMadgError_nochk {junk : Nat → XR} {f : Nat} {incl : Option XR} {g a m : Mtx XR} {beta : XR} (hg : g.rows = a.rows) (hm : g.rows = m.rows)
    (kg : RowsOk junk g a.rows) (ka : RowsOk junk a a.rows) (km : RowsOk junk m a.rows) :
    (NoChk.calMadgError junk f incl g a m beta).sat fun St => ∃ x y, St = calTotal a.rows x y := by
  unfold NoChk.calMadgError
  refine Out.sat.bind (P := fun _ => True) (forN_inv (fun _ => True) trivial fun j hj s _ => ?_) fun s _ => satp ⟨_, _, rfl⟩
  obtain ⟨gv, eg, g3, gw⟩ := kg j hj
  obtain ⟨av, ea, a3, aw⟩ := ka j hj
  obtain ⟨mv, em, m3, mw⟩ := km j hj
  rw [calRow_eq (by omega), calRow_eq hj, calRow_eq (by omega), eg, ok_bind, ea, ok_bind, em, ok_bind]
  have hS : Sens.WF ⟨some av, some mv, gv⟩ := ⟨by rintro _ ⟨⟩; exact aw, by rintro _ ⟨⟩; exact mw, gw⟩
  refine Out.sat.bind (P := fun p => Sens.Like ⟨some av, some mv, gv⟩ p.2.1) ?_ ?_
  · unfold NoChk.fusMadgFeed
    split
    · exact (sat_ok _ _).2 (.refl _)
    · exact nochk_madgwick_safe hS (by simp [badSize, a3]) (by simp [badSize, m3]) g3
  · rintro ⟨_, ⟨sa, sm, sg⟩, q'⟩ ⟨hl, _, _⟩
    cases sa with
    | none => exact hl.elim
    | some av' =>
      have hl : av.Like av' := hl
      exact (calTilt_safe (hl.wf aw) (hl.1.trans a3)).bind fun _ _ => satp trivial

theorem search_val {n : Nat} (hn : 0 < n) {f : Nat → XR → Out XR} {c s t : XR}
    (hf : ∀ i < n, ∀ u v, f i u = ok v → v = if i = 0 then c else u) (h : forN n f s = ok t) : t = c := by
  have : ∀ k ≤ n, ∀ t, forN k f s = ok t → t = if k = 0 then s else c := by
    intro k
    induction k with
    | zero =>
      intro _ t h
      cases h
      rfl
    | succ k ih =>
      intro hk t h
      rw [forN_succ] at h
      obtain ⟨u, hu, h⟩ := bind_ok h
      rw [hf k (by omega) u t h, ih (by omega) u hu]
      by_cases h0 : k = 0
      · simp [h0]
      · simp [h0]
  rw [this n le_rfl t h, if_neg (by omega)]

theorem calKeep_val {i : Nat} {St cand best : XR} {n : Nat} (h : ∃ x y, St = calTotal n x y) :
    calKeep i St cand best = if i = 0 then cand else best := by
  obtain ⟨x, y, rfl⟩ := h
  exact calKeep_zero ..

/-- C147. `zsl_fus_cal_madg`, whatever the data and the frequency (also one below 1, which the filter refuses). -/
theorem nochk_cal_madg (junk : Nat → XR) (old : Nat) (g a m : Mtx XR) (sampleFreq : XR) (incl : Option XR) (beta : XR) :
    SameIfAccepted (calMadg junk old g a m sampleFreq incl beta) (NoChk.calMadg junk old g a m sampleFreq incl beta) := by
  intro out h
  have hk := passed h
  unfold calMadg at h
  rw [if_neg hk] at h
  push Not at hk
  obtain ⟨f, hf, h⟩ := bind_ok h
  dsimp only at h
  obtain ⟨b, hb, h⟩ := bind_ok h
  cases h
  have hv : out = CReal.ofNat 0 / lit 1000 := by
    refine search_val (by omega) ?_ hb
    intro i hi u v hv
    obtain ⟨St, hS, hv⟩ := bind_ok hv
    cases hv
    rw [calKeep_val (calMadgError_form hS).1]
    by_cases h0 : i = 0
    · simp only [h0, if_pos]
    · simp only [h0, if_false]
  obtain ⟨u, v, hstep⟩ := forN_step hb 0 (by omega)
  obtain ⟨St, hS, -⟩ := bind_ok hstep
  obtain ⟨-, kg, ka, km⟩ := calMadgError_form hS
  have hr := fun f c => calMadgError_nochk (f := f) (incl := incl) (beta := c) hk.2.2.2.2.1 hk.2.2.2.2.2 kg ka km
  unfold NoChk.calMadg
  rw [hf, ok_bind]
  dsimp only
  obtain ⟨w, hw, -⟩ := forN_inv (n := 1000) (s := beta) (f := fun i beta => do
      let St ← NoChk.calMadgError junk (NoChk.fusInit f old).2 incl g a m (CReal.ofNat i / lit 1000)
      return calKeep i St (CReal.ofNat i / lit 1000) beta) (fun _ => True) trivial fun i _ s _ =>
    (hr _ _).bind fun _ _ => satp trivial
  rw [hw, ok_bind, hv]
  have : w = CReal.ofNat 0 / lit 1000 := by
    refine search_val (by omega) ?_ hw
    intro i hi u v hv
    obtain ⟨St, hS, hv⟩ := bind_ok hv
    cases hv
    obtain ⟨St', hS', hf'⟩ := hr (NoChk.fusInit f old).2 (CReal.ofNat i / lit 1000)
    rw [hS] at hS'
    cases hS'
    rw [calKeep_val hf']
    by_cases h0 : i = 0
    · simp only [h0, if_pos]
    · simp only [h0, if_false]
  rw [this]
  rfl

theorem calMahnError_form {junk : Nat → XR} {f : Nat} {incl : Option XR} {g a m : Mtx XR} {kp St : XR} {fb fb' : Vec XR}
    (h : calMahnError junk f incl g a m kp fb = ok (St, fb')) :
    (∃ x y, St = calTotal a.rows x y) ∧ RowsOk junk g a.rows ∧ RowsOk junk a a.rows ∧ RowsOk junk m a.rows := by
  unfold calMahnError at h
  obtain ⟨s, hs, h⟩ := bind_ok h
  cases h
  have hst := forN_step hs
  refine ⟨⟨_, _, rfl⟩, fun j hj => ?_, fun j hj => ?_, fun j hj => ?_⟩ <;> obtain ⟨u, v, hj⟩ := hst j hj <;>
    obtain ⟨v1, h1, hj⟩ := bind_ok hj <;> obtain ⟨v2, h2, hj⟩ := bind_ok hj <;> obtain ⟨v3, h3, hj⟩ := bind_ok hj
  · exact ⟨v1, h1, calRow_wf h1⟩
  · exact ⟨v2, h2, calRow_wf h2⟩
  · exact ⟨v3, h3, calRow_wf h3⟩

theorem calMahnError_nochk {junk : Nat → XR} {f : Nat} {incl : Option XR} {g a m : Mtx XR} {kp : XR} {fb : Vec XR} (hg : g.rows = a.rows)
    (hm : g.rows = m.rows) (kg : RowsOk junk g a.rows) (ka : RowsOk junk a a.rows) (km : RowsOk junk m a.rows) (hb : fb.sz = 3 ∧ fb.WF) :
    (NoChk.calMahnError junk f incl g a m kp fb).sat fun p => (∃ x y, p.1 = calTotal a.rows x y) ∧ p.2.sz = 3 ∧ p.2.WF := by
  unfold NoChk.calMahnError
  refine Out.sat.bind (P := fun s => s.2.1.sz = 3 ∧ s.2.1.WF) (forN_inv (fun s : Quat XR × Vec XR × XR × XR => s.2.1.sz = 3 ∧ s.2.1.WF) hb fun j hj s hs => ?_)
    fun s hs => satp ⟨⟨_, _, rfl⟩, hs⟩
  obtain ⟨gv, eg, g3, gw⟩ := kg j hj
  obtain ⟨av, ea, a3, aw⟩ := ka j hj
  obtain ⟨mv, em, m3, mw⟩ := km j hj
  rw [calRow_eq (by omega), calRow_eq hj, calRow_eq (by omega), eg, ok_bind, ea, ok_bind, em, ok_bind]
  have hS : Sens.WF ⟨some av, some mv, gv⟩ := ⟨by rintro _ ⟨⟩; exact aw, by rintro _ ⟨⟩; exact mw, gw⟩
  refine Out.sat.bind (P := fun p => Sens.Like ⟨some av, some mv, gv⟩ p.2.1 ∧ s.2.1.Like p.2.2.1.intfb) ?_ ?_
  · unfold NoChk.fusMahnFeed
    split
    · exact (sat_ok _ _).2 ⟨.refl _, .refl _⟩
    · exact (nochk_mahony_safe hS (c := ⟨kp, lit 0.02, lit 0, s.2.1⟩) hs.2 (by simp [badSize, a3]) (by simp [badSize, m3]) g3 hs.1).bind
        fun p hp => satp hp
  · rintro ⟨_, ⟨sa, sm, sg⟩, c, q'⟩ ⟨⟨hl, _, _⟩, lc⟩
    cases sa with
    | none => exact hl.elim
    | some av' =>
      have hl : av.Like av' := hl
      exact (calTilt_safe (hl.wf aw) (hl.1.trans a3)).bind fun _ _ => satp ⟨lc.1.trans hs.1, lc.wf hs.2⟩

theorem search_val2 {n : Nat} (hn : 0 < n) {f : Nat → XR × Vec XR → Out (XR × Vec XR)} {c : XR} {s t : XR × Vec XR}
    (hf : ∀ i < n, ∀ u v, f i u = ok v → v.1 = if i = 0 then c else u.1) (h : forN n f s = ok t) : t.1 = c := by
  have : ∀ k ≤ n, ∀ t, forN k f s = ok t → t.1 = if k = 0 then s.1 else c := by
    intro k
    induction k with
    | zero =>
      intro _ t h
      cases h
      rfl
    | succ k ih =>
      intro hk t h
      rw [forN_succ] at h
      obtain ⟨u, hu, h⟩ := bind_ok h
      rw [hf k (by omega) u t h, ih (by omega) u hu]
      by_cases h0 : k = 0
      · simp [h0]
      · simp [h0]
  rw [this n le_rfl t h, if_neg (by omega)]

/-- C147. `zsl_fus_cal_mahn`, whatever the data and the frequency. -/
theorem nochk_cal_mahn (junk : Nat → XR) (old : Nat) (g a m : Mtx XR) (sampleFreq : XR) (incl : Option XR) (kp : XR) :
    SameIfAccepted (calMahn junk old g a m sampleFreq incl kp) (NoChk.calMahn junk old g a m sampleFreq incl kp) := by
  intro out h
  have hk := passed h
  unfold calMahn at h
  rw [if_neg hk] at h
  push Not at hk
  obtain ⟨f, hf, h⟩ := bind_ok h
  dsimp only at h
  obtain ⟨b, hb, h⟩ := bind_ok h
  cases h
  have hv : b.1 = CReal.ofNat 0 / lit 1000 := by
    refine search_val2 (by omega) ?_ hb
    intro i hi u v hv
    obtain ⟨⟨St, fb⟩, hS, hv⟩ := bind_ok hv
    cases hv
    dsimp only
    rw [calKeep_val (calMahnError_form hS).1]
    by_cases h0 : i = 0
    · simp only [h0, if_pos]
    · simp only [h0, if_false]
  obtain ⟨u, v, hstep⟩ := forN_step hb 0 (by omega)
  obtain ⟨⟨St, fb⟩, hS, -⟩ := bind_ok hstep
  obtain ⟨-, kg, ka, km⟩ := calMahnError_form hS
  have hr := fun f c (fb : Vec XR) (hb : fb.sz = 3 ∧ fb.WF) =>
    calMahnError_nochk (f := f) (incl := incl) (kp := c) hk.2.2.2.2.1 hk.2.2.2.2.2 kg ka km hb
  unfold NoChk.calMahn
  rw [hf, ok_bind]
  dsimp only
  have hI := forN_congr_inv (n := 1000) (s := (kp, (⟨3, [lit 0, lit 0, lit 0]⟩ : Vec XR))) (f := fun i (s : XR × Vec XR) => do
      let (St, fb) ← NoChk.calMahnError junk (NoChk.fusInit f old).2 incl g a m (CReal.ofNat i / lit 1000) s.2
      return (calKeep i St (CReal.ofNat i / lit 1000) s.1, fb)) (g := fun i (s : XR × Vec XR) => do
      let (St, fb) ← NoChk.calMahnError junk (NoChk.fusInit f old).2 incl g a m (CReal.ofNat i / lit 1000) s.2
      return ((if i = 0 then CReal.ofNat 0 / lit 1000 else s.1), fb)) (fun _ s => s.2.sz = 3 ∧ s.2.WF) ⟨rfl, by simp [Vec.WF]⟩ (by
    intro i hi s hs
    refine bind_congr_ok rfl fun ⟨St, fb⟩ hS => ?_
    obtain ⟨p, hp, hf', -⟩ := hr (NoChk.fusInit f old).2 (CReal.ofNat i / lit 1000) s.2 hs
    rw [hS] at hp
    cases hp
    dsimp only at hf' ⊢
    rw [calKeep_val hf']
    by_cases h0 : i = 0
    · simp only [h0, if_pos]
    · simp only [h0, if_false]) (by
    intro i hi s s' hs he
    obtain ⟨⟨St, fb⟩, hS, he⟩ := bind_ok he
    cases he
    obtain ⟨p, hp, -, hf'⟩ := hr (NoChk.fusInit f old).2 (CReal.ofNat i / lit 1000) s.2 hs
    rw [hS] at hp
    cases hp
    exact hf')
  obtain ⟨w, hw, -⟩ := forN_inv (n := 1000) (s := (kp, (⟨3, [lit 0, lit 0, lit 0]⟩ : Vec XR))) (f := fun i (s : XR × Vec XR) => do
      let (St, fb) ← NoChk.calMahnError junk (NoChk.fusInit f old).2 incl g a m (CReal.ofNat i / lit 1000) s.2
      return ((if i = 0 then CReal.ofNat 0 / lit 1000 else s.1), fb)) (fun s => s.2.sz = 3 ∧ s.2.WF) ⟨rfl, by simp [Vec.WF]⟩ fun i _ s hs =>
    (hr _ _ _ hs).bind fun _ hp => satp hp.2
  rw [hI.1, hw, ok_bind, hv]
  have : w.1 = CReal.ofNat 0 / lit 1000 := by
    refine search_val2 (by omega) ?_ hw
    intro i hi u v hv
    obtain ⟨⟨St, fb⟩, hS, hv⟩ := bind_ok hv
    cases hv
    rfl
  rw [this]
  rfl

/-! ### Fast magnetometer calibration -/

theorem rd_mem {R : Type} {l : List R} {i : Nat} {x : R} (h : rd l i = ok x) : x ∈ l := by
  by_cases hi : i < l.length
  · rw [rd_lt hi] at h
    cases h
    exact List.getElem_mem hi
  · rw [rd_ge (by omega)] at h
    cases h

theorem cholesky_sym {junk : Nat → XR} (A : Matrix (Fin 3) (Fin 3) ℝ) (hA : A.transpose = A) :
    ∃ L, mtxCholesky (junk 0) (mat A []) (Mtx.uninit junk 3 3) = ok (0, L) ∧ Shp L 3 3 := by
  obtain ⟨⟨rc, L⟩, hL, hl⟩ := mtx_cholesky_safe (junk 0) (mat A []) (Mtx.uninit junk 3 3) (by simp [Mtx.WF, mat, mtxOf]) (Mtx.wf_uninit junk 3 3)
  refine ⟨L, ?_, hl.1, hl.2.1⟩
  rw [hL]
  unfold mtxCholesky at hL
  rw [if_neg (by simp)] at hL
  obtain ⟨b, hb, h⟩ := choleskyAsym_eq (junk 0) A []
  have : b = false := by
    cases b with
    | false => rfl
    | true => exact absurd hA (h.1 rfl)
  subst this
  rw [hb, ok_bind, if_neg Bool.false_ne_true, if_neg (by simp), if_neg (by simp)] at hL
  obtain ⟨_, _, hL⟩ := bind_ok hL
  obtain ⟨_, _, hL⟩ := bind_ok hL
  cases hL
  rfl

/-- C147. `zsl_fus_cal_magn_fast`, for fits whose coefficients are real numbers. What is missing: the function ignores the code of the Cholesky
decomposition, which refuses a matrix with a NaN with the checks only; `K` then holds the uninitialised local in the one build and NaNs in the
other. -/
theorem nochk_cal_magn_fast_partial (junk : Nat → XR) (m : Mtx XR) (me : Option XR) (K : Mtx XR) (b : Vec XR)
    (hfit : ∀ rc coef, staQuadFit junk m (Vec.uninit junk 9) = ok (rc, coef) → ∀ x ∈ coef.data, ∃ r : ℝ, x = XR.fin r) :
    SameIfAccepted (calMagnFast junk m me K b) (NoChk.calMagnFast junk m me K b) := by
  refine sameIf_of_eq fun ⟨out, h⟩ => ?_
  have hg := passed h
  unfold NoChk.calMagnFast calMagnFast
  dsimp only
  rw [if_neg hg]
  push Not at hg
  refine bind_congr_ok (quadFit_eq (b := Vec.uninit junk 9) (by push Not; exact ⟨hg.1, rfl⟩)) fun ⟨rc, coef⟩ hc => ?_
  have hfin := hfit rc coef hc
  dsimp only
  refine bind_congr_ok rfl fun A hA => ?_
  have hA' : ∃ c : Fin 9 → ℝ, A = mat (quadMat c) [] := by
    unfold calQuadric at hA
    obtain ⟨x0, e0, hA⟩ := bind_ok hA
    obtain ⟨x1, e1, hA⟩ := bind_ok hA
    obtain ⟨x2, e2, hA⟩ := bind_ok hA
    obtain ⟨x3, e3, hA⟩ := bind_ok hA
    obtain ⟨x4, e4, hA⟩ := bind_ok hA
    obtain ⟨x5, e5, hA⟩ := bind_ok hA
    cases hA
    obtain ⟨r0, rfl⟩ := hfin _ (rd_mem e0)
    obtain ⟨r1, rfl⟩ := hfin _ (rd_mem e1)
    obtain ⟨r2, rfl⟩ := hfin _ (rd_mem e2)
    obtain ⟨r3, rfl⟩ := hfin _ (rd_mem e3)
    obtain ⟨r4, rfl⟩ := hfin _ (rd_mem e4)
    obtain ⟨r5, rfl⟩ := hfin _ (rd_mem e5)
    exact ⟨![r0, r1, r2, r3, r4, r5, 0, 0, 0], rfl⟩
  iterate 3 refine bind_congr_ok rfl fun _ _ => ?_
  obtain ⟨c, rfl⟩ := hA'
  obtain ⟨L, hL, hLs⟩ := cholesky_sym (junk := junk) (quadMat c) (by
    ext i j
    fin_cases i <;> fin_cases j <;> rfl)
  refine bind_congr_ok ((cholesky_ok hL (show (0 : Int) ≠ -EINVAL by decide)).trans hL.symm) fun ⟨_, L'⟩ hL' => ?_
  rw [hL] at hL'
  cases hL'
  dsimp only
  have hAs : Shp (mat (quadMat c) []) 3 3 := ⟨rfl, rfl⟩
  refine bind_congr_ok (trans_eq (b := Mtx.uninit junk 3 3) hLs.1 hLs.2) fun ⟨_, G⟩ hG => ?_
  dsimp only
  replace hG := shp_trans (b := Mtx.uninit junk 3 3) (r := 3) (c := 3) ⟨rfl, rfl⟩ hG
  refine bind_congr_ok rfl fun ⟨_, G1⟩ hG1 => ?_
  dsimp only
  replace hG1 := shp_scalarMult hG hG1
  refine bind_congr_ok (copy_eq (hg.2.1.trans hG1.1.symm) (hg.2.2.1.trans hG1.2.symm)) fun ⟨_, K1⟩ _ => ?_
  dsimp only
  refine bind_congr_ok (inv_eq (mi := Mtx.uninit junk 3 3) hAs.1.symm hAs.2.symm) fun ⟨_, Ai⟩ hAi => ?_
  dsimp only
  replace hAi : Shp Ai 3 3 := shp_inv (mi := Mtx.uninit junk 3 3) hAs.1.symm hAs.2.symm hAi
  exact bind_congr_ok (mult_eq (c := Mtx.uninit junk 3 1) hAi.2 hAi.1.symm rfl) fun _ _ => rfl

/-! ### Calls that are accepted -/

open Matrix

example : NoChk.calCorrVec (fun _ => XR.nan) (vec (!![2, 1; 0, 4] *ᵥ ![3, 5] + ![-1, 7] : Fin 2 → ℝ) [])
    (mat (!![1/2, -1/8; 0, 1/4] : Matrix (Fin 2) (Fin 2) ℝ) []) (vec (-![-1, 7]) []) (vecOf ![XR.nan, XR.nan] []) = ok (0, vec ![3, 5] []) := by
  refine nochk_cal_corr_vec _ _ _ _ _ _ (cal_corr_vec_recovers (n := 1) _ _ _ _ _ ?_ _ _ _ _ _)
  ext i j
  fin_cases i <;> fin_cases j <;> simp [Matrix.mul_apply, Fin.sum_univ_two]; norm_num

example (v : V3) (M : Matrix (Fin 3) (Fin 3) ℝ) (z : Fin 3 → XR) :
    NoChk.calRotMtx (fun _ => XR.nan) (vec v []) (mat M []) (vecOf z []) = ok (0, vec (M *ᵥ v) []) :=
  nochk_cal_rot_mtx _ _ _ _ _ (cal_rot_mtx_correct _ _ _ _ _ _ _)

example : ∃ y : V3, NoChk.calRotAxisAngle (fun _ => XR.nan) (vec ![1, 0, 0] []) (vec ![0, 0, 5] []) (XR.fin (Real.pi / 2))
    (vecOf ![XR.nan, XR.nan, XR.nan] []) = ok (0, vec y []) := by
  have h : 1e-6 < len ![0, 0, 5] := lt_len (by simp; norm_num)
  obtain ⟨k, -, -, h⟩ := cal_rot_axis_angle_correct (fun _ => XR.nan) ![1, 0, 0] ![0, 0, 5] (Real.pi / 2) h.le ![XR.nan, XR.nan, XR.nan] [] [] []
  exact ⟨_, nochk_cal_rot_axis_angle _ _ _ _ _ _ h⟩

example (junk : ℕ → XR) (K : Matrix (Fin 3) (Fin 3) XR) (b : Fin 3 → XR) : ∃ out,
    NoChk.calMagnFast junk (mat (magnPts.map Int.cast) []) (some (XR.fin 7)) (mtxOf K []) (vecOf b []) = ok (0, out) := by
  obtain ⟨K', b', _, h, _⟩ := cal_magn_fast_partial junk (mat (magnPts.map Int.cast) []) (some 7) K b [] [] rfl
    (fun y hy => by simp at hy; rw [← hy]; norm_num) magnQuad 0 (magn_fit junk []) magn_posDef
  refine ⟨_, nochk_cal_magn_fast_partial junk _ _ _ _ ?_ _ h⟩
  intro rc coef hc
  rw [magn_fit] at hc
  cases hc
  intro x hx
  rw [vec_data, arr, List.append_nil, List.mem_ofFn] at hx
  obtain ⟨i, rfl⟩ := hx
  exact ⟨_, rfl⟩

example (junk : ℕ → XR) (G A M : Matrix (Fin 5) (Fin 3) ℝ) :
    NoChk.calMadg junk 0 (mat G []) (mat A []) (mat M []) (XR.fin 100) (optFin none) XR.nan = ok (0, XR.fin 0) ∧
      NoChk.calMahn junk 0 (mat G []) (mat A []) (mat M []) (XR.fin 100) (optFin none) XR.nan = ok (0, XR.fin 0) :=
  ⟨nochk_cal_madg _ _ _ _ _ _ _ _ _ (cal_madg_zero _ _ _ _ _ _ _ _ _ _ (by norm_num) (by norm_num) _),
    nochk_cal_mahn _ _ _ _ _ _ _ _ _ (cal_mahn_zero _ _ _ _ _ _ _ _ _ _ (by norm_num) (by norm_num) _)⟩

end Verif
