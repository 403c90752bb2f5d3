import Verif.Props.Safe7

/-!
# Memory safety of the sensor fusion filters for every content (C148)
-/

namespace Verif

open Out

set_option linter.unusedSectionVars false

variable {R : Type} [CReal R]

theorem optLike.refl : ∀ v : Option (Vec R), optLike v v
  | none => trivial
  | some _ => Vec.Like.refl _

theorem Sens.Like.refl (s : Sens R) : s.Like s := ⟨optLike.refl _, optLike.refl _, Vec.Like.refl _⟩

theorem sensValid_safe (v : Option (Vec R)) (h : ∀ w ∈ v, w.WF) : (sensValid v).sat fun b => b = true → v.isSome := by
  cases v with
  | none => exact (sat_ok _ _).2 (by simp)
  | some w => exact (vec_norm_safe w (h w rfl)).2.bind fun _ _ => satp (by simp)

theorem sensMissing_safe (v : Option (Vec R)) (h : ∀ w ∈ v, w.WF) : (sensMissing v).sat fun b => b = false → v.isSome := by
  cases v with
  | none => exact (sat_ok _ _).2 (by simp)
  | some w => exact (vec_norm_safe w (h w rfl)).2.bind fun _ _ => satp (by simp)

theorem unitP_safe (v : Option (Vec R)) (h : ∀ w ∈ v, w.WF) (hb : badSize v = false) (hs : v.isSome) :
    (unitP v).sat fun w => optLike v (some w) ∧ w.sz = 3 ∧ w.WF := by
  cases v with
  | none => cases hs
  | some v =>
    have h3 : v.sz = 3 := by simpa [badSize] using hb
    refine (unit3_safe v h3 (h v rfl)).bind ?_
    rintro ⟨_, w⟩ ⟨l, _⟩
    exact satp ⟨l, l.1.trans h3, l.wf (h v rfl)⟩

theorem quatOfVec_safe (v : Vec R) (h : 3 ≤ v.data.length) : (quatOfVec v).sat fun _ => True := by
  unfold quatOfVec
  rw [rd_lt (by omega), ok_bind, rd_lt (by omega), ok_bind, rd_lt (by omega), ok_bind]
  exact satp trivial

theorem addAt_safe (v : Vec R) (i : ℕ) (x : R) (h : i < v.data.length) : (addAt v i x).sat fun w => v.Like w := by
  unfold addAt
  rw [rd_lt h, ok_bind, wr_lt _ h, ok_bind]
  exact satp ⟨rfl, by simp⟩

theorem clampAt_safe (v : Vec R) (i : ℕ) (x : R) (h : i < v.data.length) : (clampAt v i x).sat fun w => v.Like w := by
  unfold clampAt
  rw [rd_lt h, ok_bind]
  split
  · rw [wr_lt _ h, ok_bind]
    exact satp ⟨rfl, by simp⟩
  split
  · rw [wr_lt _ h, ok_bind]
    exact satp ⟨rfl, by simp⟩
  · exact satp (.refl _)

/-! ## Mahony -/

theorem mahnFeedback_safe (f : ℕ) (c : MahnCfg R) (e g : Vec R) (hc : 3 ≤ c.intfb.data.length) (he : 3 ≤ e.data.length)
    (hg : 3 ≤ g.data.length) : (mahnFeedback f c e g).sat fun p => c.intfb.Like p.1 ∧ g.Like p.2 := by
  unfold mahnFeedback
  rw [rd_lt (by omega), ok_bind, rd_lt (by omega), ok_bind, rd_lt (by omega), ok_bind]
  refine (addAt_safe _ 0 _ (by omega)).bind fun f1 l1 => ?_
  refine (addAt_safe _ 1 _ (by have := l1.2; omega)).bind fun f2 l2 => ?_
  replace l2 := l1.trans l2
  refine (addAt_safe _ 2 _ (by have := l2.2; omega)).bind fun f3 l3 => ?_
  replace l3 := l2.trans l3
  refine (clampAt_safe _ 0 _ (by have := l3.2; omega)).bind fun f4 l4 => ?_
  replace l4 := l3.trans l4
  refine (clampAt_safe _ 1 _ (by have := l4.2; omega)).bind fun f5 l5 => ?_
  replace l5 := l4.trans l5
  refine (clampAt_safe _ 2 _ (by have := l5.2; omega)).bind fun f6 l6 => ?_
  replace l6 := l5.trans l6
  have h6 : 3 ≤ f6.data.length := by rw [l6.2]; exact hc
  rw [rd_lt (by omega), ok_bind, rd_lt (by omega), ok_bind, rd_lt (by omega), ok_bind]
  refine (addAt_safe _ 0 _ (by omega)).bind fun g1 k1 => ?_
  refine (addAt_safe _ 1 _ (by have := k1.2; omega)).bind fun g2 k2 => ?_
  replace k2 := k1.trans k2
  refine (addAt_safe _ 2 _ (by have := k2.2; omega)).bind fun g3 k3 => ?_
  replace k3 := k2.trans k3
  refine (addAt_safe _ 0 _ (by have := k3.2; omega)).bind fun g4 k4 => ?_
  replace k4 := k3.trans k4
  refine (addAt_safe _ 1 _ (by have := k4.2; omega)).bind fun g5 k5 => ?_
  replace k5 := k4.trans k5
  refine (addAt_safe _ 2 _ (by have := k5.2; omega)).bind fun g6 k6 => ?_
  exact satp ⟨l6, k5.trans k6⟩

theorem crossError_safe (junk : ℕ → R) (q b : Quat R) (a : Vec R) (h : a.WF) :
    (fusCrossError junk q b a).sat fun e => e.sz = 3 ∧ e.WF ∧ 3 ≤ e.data.length := by
  unfold fusCrossError
  dsimp only
  refine (vec_cross_safe a _ _ h (wf_lit3 _ _ _) (Vec.wf_uninit junk 3)).1.bind ?_
  rintro ⟨_, e⟩ l
  exact satp ⟨l.1, l.wf (Vec.wf_uninit junk 3), l.three (Vec.wf_uninit junk 3) rfl⟩

theorem integrate_safe (f : ℕ) (g : Vec R) (q : Quat R) (h : g.WF) : (fusIntegrate f g q).sat fun _ => True := by
  unfold fusIntegrate
  refine (quat_from_ang_vel_safe g h _ _ _).bind ?_
  rintro ⟨_, q⟩ _
  exact satp trivial

theorem mahonyImu_safe (junk : ℕ → R) (f : ℕ) (s : Sens R) (c : MahnCfg R) (q : Quat R) (h : s.WF) (hc : c.intfb.WF) :
    (fusMahonyImu junk f s c q).sat fun p => s.Like p.2.1 ∧ c.intfb.Like p.2.2.1 := by
  unfold fusMahonyImu
  split
  · exact (sat_ok _ _).2 ⟨.refl _, .refl _⟩
  rename_i hb
  push Not at hb
  obtain ⟨ba, bg, bc⟩ := hb
  split
  · exact (sat_ok _ _).2 ⟨.refl _, .refl _⟩
  refine (sensValid_safe s.a h.1).bind fun v hv => ?_
  split
  · refine (unitP_safe s.a h.1 (by simpa using ba) (hv ‹_›)).bind fun a ⟨la, a3, aw⟩ => ?_
    refine (crossError_safe junk q quatUp a aw).bind fun e ⟨_, _, he⟩ => ?_
    refine (mahnFeedback_safe f c e s.g (hc.three bc) he (h.2.2.three bg)).bind fun ⟨fb, g⟩ ⟨l1, l2⟩ => ?_
    refine (integrate_safe f g q (l2.wf h.2.2)).bind fun q' _ => ?_
    exact satp ⟨⟨la, optLike.refl _, l2⟩, l1⟩
  · refine (integrate_safe f s.g q h.2.2).bind fun q' _ => ?_
    exact satp ⟨.refl _, .refl _⟩

/-- C148. `zsl_fus_mahn_feed`, for all sizes, with or without an accelerometer and a magnetometer. -/
theorem mahn_feed_safe (junk : ℕ → R) (f : ℕ) (incl : Option R) (s : Sens R) (c : MahnCfg R) (q : Quat R) (h : s.WF) (hc : c.intfb.WF) :
    (fusMahnFeed junk f incl s c q).sat fun p => s.Like p.2.1 ∧ c.intfb.Like p.2.2.1.intfb := by
  unfold fusMahnFeed
  split
  · exact (sat_ok _ _).2 ⟨.refl _, .refl _⟩
  refine Out.sat.bind (P := fun p => s.Like p.2.1 ∧ c.intfb.Like p.2.2.1) ?_ fun p hp => satp hp
  unfold fusMahony
  split
  · exact (sat_ok _ _).2 ⟨.refl _, .refl _⟩
  rename_i hb
  push Not at hb
  obtain ⟨ba, bm, bg, bc⟩ := hb
  split
  · exact (sat_ok _ _).2 ⟨.refl _, .refl _⟩
  refine (sensMissing_safe s.m h.2.1).bind fun ms hms => ?_
  split
  · exact mahonyImu_safe junk f s c q h hc
  refine (sensValid_safe s.a h.1).bind fun v hv => ?_
  split
  · refine (unitP_safe s.a h.1 (by simpa using ba) (hv ‹_›)).bind fun a ⟨la, a3, aw⟩ => ?_
    refine (unitP_safe s.m h.2.1 (by simpa using bm) (hms (by simpa using ‹¬ ms = true›))).bind fun m ⟨lm, m3, mw⟩ => ?_
    refine (crossError_safe junk q quatUp a aw).bind fun eg ⟨g1, g2, _⟩ => ?_
    refine (quatOfVec_safe m (mw.three m3)).bind fun qm _ => ?_
    dsimp only
    refine (crossError_safe junk q _ m mw).bind fun eb ⟨b1, b2, _⟩ => ?_
    refine (vec_add_safe eg eb _ g2 b2 (Vec.wf_uninit junk 3)).bind fun ⟨_, e⟩ l => ?_
    refine (mahnFeedback_safe f c e s.g (hc.three bc) (l.three (Vec.wf_uninit junk 3) rfl) (h.2.2.three bg)).bind fun ⟨fb, g⟩ ⟨l1, l2⟩ => ?_
    refine (integrate_safe f g q (l2.wf h.2.2)).bind fun q' _ => ?_
    exact satp ⟨⟨la, lm, l2⟩, l1⟩
  · refine (integrate_safe f s.g q h.2.2).bind fun q' _ => ?_
    exact satp ⟨.refl _, .refl _⟩

/-! ## Madgwick -/

theorem residual_safe (junk : ℕ → R) (q b : Quat R) (a : Vec R) (h : 3 ≤ a.data.length) : (madgResidual junk q b a).sat fun f => f.WF := by
  unfold madgResidual
  dsimp only
  rw [rd_lt (by omega), ok_bind, rd_lt (by omega), ok_bind, rd_lt (by omega), ok_bind]
  exact satp (by simp [Mtx.WF])

theorem grad_safe (junk : ℕ → R) (jac : List R) (f : Mtx R) (hj : 12 ≤ jac.length) (hf : f.WF) :
    (madgGrad junk jac f).sat fun g => 4 ≤ g.data.length := by
  unfold madgGrad
  refine (mtx_from_arr_safe _ jac (Mtx.wf_uninit junk 4 3) (by simpa using hj)).bind fun ⟨_, jt⟩ l1 => ?_
  refine (mtx_mult_safe jt f _ (l1.wf (Mtx.wf_uninit junk 4 3)) hf (Mtx.wf_uninit junk 4 1)).bind fun ⟨_, g⟩ l2 => ?_
  refine satp ?_
  have := l2.2.2
  simp at this
  show 4 ≤ g.data.length
  omega

theorem madgUpdate_safe (f : ℕ) (beta : R) (g grad : Vec R) (q : Quat R) (hg : g.WF) (hd : 4 ≤ grad.data.length) :
    (madgUpdate f beta g grad q).sat fun _ => True := by
  unfold madgUpdate
  dsimp only
  refine (quat_from_ang_vel_safe g hg _ _ _).bind fun ⟨_, q⟩ _ => ?_
  dsimp only
  rw [rd_lt (by omega), ok_bind, rd_lt (by omega), ok_bind, rd_lt (by omega), ok_bind, rd_lt (by omega), ok_bind]
  exact satp trivial

theorem grad0_safe (junk : ℕ → R) : (vecInit (Vec.uninit junk 4)).sat fun p => p.2.sz = 4 ∧ p.2.data.length = 4 :=
  (vec_init_safe _ (Vec.wf_uninit junk 4)).mono fun _ l => ⟨l.1, by rw [l.2]; simp⟩

theorem madgwickImu_safe (junk : ℕ → R) (f : ℕ) (beta : R) (s : Sens R) (q : Quat R) (h : s.WF) :
    (fusMadgwickImu junk f beta s q).sat fun p => s.Like p.2.1 := by
  unfold fusMadgwickImu
  split
  · exact (sat_ok _ _).2 (.refl _)
  rename_i hb
  push Not at hb
  obtain ⟨ba, bg⟩ := hb
  split
  · exact (sat_ok _ _).2 (.refl _)
  dsimp only
  refine (grad0_safe junk).bind fun ⟨_, gr⟩ ⟨r1, r2⟩ => ?_
  dsimp only at r1 r2 ⊢
  refine (sensValid_safe s.a h.1).bind fun v hv => ?_
  split
  · refine (unitP_safe s.a h.1 (by simpa using ba) (hv ‹_›)).bind fun a ⟨la, a3, aw⟩ => ?_
    refine (residual_safe junk _ _ a (aw.three a3)).bind fun rs hrs => ?_
    refine (grad_safe junk (madgJacG _) rs (by simp [madgJacG]) hrs).bind fun jtf hj => ?_
    refine (vec_from_arr_safe gr jtf.data (by simp [Vec.WF, r1, r2]) (by omega)).bind fun ⟨_, g1⟩ l1 => ?_
    refine (vec_to_unit_safe g1 (l1.wf (by simp [Vec.WF, r1, r2])) (by have := l1.1; dsimp only at this; omega)).bind fun ⟨_, g2⟩ l2 => ?_
    refine (madgUpdate_safe f beta s.g g2 _ h.2.2 (by have := (l1.trans l2).2; dsimp only at this; omega)).bind fun q' _ => ?_
    exact satp ⟨la, optLike.refl _, .refl _⟩
  · refine (madgUpdate_safe f beta s.g gr _ h.2.2 (by omega)).bind fun q' _ => ?_
    exact satp (.refl _)

/-- C148. `zsl_fus_madg_feed`, for all sizes, with or without an accelerometer and a magnetometer. -/
theorem madg_feed_safe (junk : ℕ → R) (f : ℕ) (incl : Option R) (beta : R) (s : Sens R) (q : Quat R) (h : s.WF) :
    (fusMadgFeed junk f incl beta s q).sat fun p => s.Like p.2.1 := by
  unfold fusMadgFeed
  split
  · exact (sat_ok _ _).2 (.refl _)
  unfold fusMadgwick
  split
  · exact (sat_ok _ _).2 (.refl _)
  rename_i hb
  push Not at hb
  obtain ⟨ba, bm, bg⟩ := hb
  split
  · exact (sat_ok _ _).2 (.refl _)
  refine (sensMissing_safe s.m h.2.1).bind fun ms hms => ?_
  split
  · exact madgwickImu_safe junk f beta s q h
  dsimp only
  refine (grad0_safe junk).bind fun ⟨_, gr⟩ ⟨r1, r2⟩ => ?_
  dsimp only at r1 r2 ⊢
  refine (sensValid_safe s.a h.1).bind fun v hv => ?_
  split
  · refine (unitP_safe s.a h.1 (by simpa using ba) (hv ‹_›)).bind fun a ⟨la, a3, aw⟩ => ?_
    refine (unitP_safe s.m h.2.1 (by simpa using bm) (hms (by simpa using ‹¬ ms = true›))).bind fun m ⟨lm, m3, mw⟩ => ?_
    refine (residual_safe junk _ _ a (aw.three a3)).bind fun rs hrs => ?_
    refine (grad_safe junk (madgJacG _) rs (by simp [madgJacG]) hrs).bind fun jg hj => ?_
    refine (quatOfVec_safe m (mw.three m3)).bind fun qm _ => ?_
    refine (residual_safe junk _ _ m (mw.three m3)).bind fun rb hrb => ?_
    refine (grad_safe junk (madgJacB _ _ _) rb (by simp [madgJacB]) hrb).bind fun jb hjb => ?_
    rw [rd_lt (by omega), ok_bind, rd_lt (by omega), ok_bind, rd_lt (by omega), ok_bind, rd_lt (by omega), ok_bind,
      rd_lt (by omega), ok_bind, rd_lt (by omega), ok_bind, rd_lt (by omega), ok_bind, rd_lt (by omega), ok_bind,
      wr_lt _ (by omega), ok_bind, wr_lt _ (by simp; omega), ok_bind, wr_lt _ (by simp; omega), ok_bind, wr_lt _ (by simp; omega), ok_bind]
    refine (vec_to_unit_safe _ (by simp [Vec.WF, r1, r2]) (by dsimp only; omega)).bind fun ⟨_, g2⟩ l2 => ?_
    refine (madgUpdate_safe f beta s.g g2 _ h.2.2 (by have := l2.2; simp at this; omega)).bind fun q' _ => ?_
    exact satp ⟨la, lm, .refl _⟩
  · refine (madgUpdate_safe f beta s.g gr _ h.2.2 (by omega)).bind fun q' _ => ?_
    exact satp (.refl _)

/-! ## The complementary filter, SAAM and AQUA -/

/-- C148. `zsl_fus_comp_feed`, for all sizes, with or without an accelerometer and a magnetometer. -/
theorem comp_feed_safe (junk : ℕ → R) (f : ℕ) (alpha : R) (s : Sens R) (q : Quat R) (h : s.WF) :
    (fusCompFeed junk f alpha s q).sat fun _ => True := by
  unfold fusCompFeed
  split
  · exact (sat_ok _ _).2 trivial
  unfold fusComp
  split
  · exact (sat_ok _ _).2 trivial
  split
  · exact (sat_ok _ _).2 trivial
  dsimp only
  refine (quat_from_ang_vel_safe s.g h.2.2 _ _ _).bind fun ⟨_, qw⟩ _ => ?_
  dsimp only
  refine (sensValid_safe s.m h.2.1).bind fun vm _ => ?_
  have key : ∀ va : Bool, (match va, s.a, s.m with
      | true, some a, some m => do
        let (_, att) ← attFromAccelmag junk a m ⟨junk 0, junk 1, junk 2⟩
        let qam := quatFromEuler (attToEuler att)
        let (_, q) := quatLerp qw qam alpha (quatToUnit q)
        return (0, quatToUnit q)
      | _, _, _ => (return (0, quatToUnit qw)) : Out (Int × Quat R)).sat fun _ => True := by
    intro va
    split
    · rename_i a m ha hm
      exact (att_from_accelmag_safe junk a m (h.1 a ha) (h.2.1 m hm) _).bind fun ⟨_, att⟩ _ => satp trivial
    · exact satp trivial
  split
  · exact (sensValid_safe s.a h.1).bind fun va _ => key va
  · exact key false

/-- C148. `zsl_fus_saam_feed`, for all sizes; the accelerometer and the magnetometer must be given (`C65`: with NULL the check itself fails). -/
theorem saam_feed_safe (junk : ℕ → R) (a m g : Vec R) (q : Quat R) (ha : a.WF) (hm : m.WF) :
    (fusSaamFeed junk ⟨some a, some m, g⟩ q).sat fun p => Sens.Like ⟨some a, some m, g⟩ p.2.1 := by
  unfold fusSaamFeed
  dsimp only
  split
  · exact (sat_ok _ _).2 (.refl _)
  rename_i a3
  split
  · exact (sat_ok _ _).2 (.refl _)
  rename_i m3
  push Not at a3 m3
  refine (vec_norm_safe m hm).2.bind fun nm _ => ?_
  split
  · exact (sat_ok _ _).2 (.refl _)
  refine (vec_norm_safe a ha).2.bind fun na _ => ?_
  split
  · exact (sat_ok _ _).2 (.refl _)
  refine (unit3_safe a a3 ha).bind fun ⟨_, a'⟩ ⟨la, ha'⟩ => ?_
  refine (unit3_safe m m3 hm).bind fun ⟨_, m'⟩ ⟨lm, hm'⟩ => ?_
  refine (vec_dot_safe a' m' _ (la.wf ha) (lm.wf hm)).bind fun ⟨_, bz⟩ _ => ?_
  dsimp only at ha' hm' ⊢
  rw [rd_lt (by omega), ok_bind, rd_lt (by omega), ok_bind, rd_lt (by omega), ok_bind, rd_lt (by omega), ok_bind,
    rd_lt (by omega), ok_bind, rd_lt (by omega), ok_bind]
  exact satp ⟨la, lm, .refl _⟩

/-- C148. `zsl_fus_aqua_feed`, for all sizes, with or without a magnetometer; in the first call an accelerometer must be given. -/
theorem aqua_feed_safe (junk : ℕ → R) (f : ℕ) (init : Bool) (c : AquaCfg R) (s : Sens R) (q : Quat R) (h : s.WF)
    (ha : init = false → s.a.isSome) : (fusAquaFeed junk f init c s q).sat fun p => s.Like p.2.1 := by
  unfold fusAquaFeed
  split
  · exact (sat_ok _ _).2 (.refl _)
  suffices key : ∀ c : AquaCfg R, (fusAqua junk f c s q).sat fun p => s.Like p.2.1 by
    split
    · exact (key _).bind fun p hp => satp hp
    · rename_i hi
      have hs := ha (by simpa using hi)
      refine Out.sat.bind (P := fun _ => True) ?_ fun ⟨al, b⟩ _ => (key _).bind fun p hp => satp hp
      unfold fusAquaAlphaInit
      split
      · rename_i e
        rw [e] at hs
        cases hs
      · rename_i v e
        split
        · exact (sat_ok _ _).2 trivial
        refine (vec_norm_safe v (h.1 v e)).2.bind fun n _ => ?_
        dsimp only
        split
        · exact satp trivial
        split <;> exact satp trivial
  intro c
  unfold fusAqua
  split
  · exact (sat_ok _ _).2 (.refl _)
  rename_i hb
  push Not at hb
  obtain ⟨ba, bm, bg⟩ := hb
  split
  · exact (sat_ok _ _).2 (.refl _)
  dsimp only
  refine (vec_scalar_safe s.g _ h.2.2).2.1.bind fun ⟨_, g⟩ lg => ?_
  refine (quat_from_ang_vel_safe g (lg.wf h.2.2) _ _ _).bind fun ⟨_, q1⟩ _ => ?_
  dsimp only
  refine (sensValid_safe s.a h.1).bind fun v hv => ?_
  split
  · refine (unitP_safe s.a h.1 (by simpa using ba) (hv ‹_›)).bind fun a ⟨la, a3, aw⟩ => ?_
    refine (quatOfVec_safe a (aw.three a3)).bind fun qa _ => ?_
    refine (sensValid_safe s.m h.2.1).bind fun v' hv' => ?_
    split
    · refine (unitP_safe s.m h.2.1 (by simpa using bm) (hv' ‹_›)).bind fun m ⟨lm, m3, mw⟩ => ?_
      refine (quatOfVec_safe m (mw.three m3)).bind fun qm _ => ?_
      exact satp ⟨la, lm, lg⟩
    · exact satp ⟨la, optLike.refl _, lg⟩
  · exact satp ⟨optLike.refl _, optLike.refl _, lg⟩

/-- Readings of NaNs and infinities, a missing magnetometer, one buffer longer than its vector. -/
example (junk : ℕ → XR) (c : MahnCfg XR) (hc : c.intfb.WF) (q : Quat XR) :
    ∃ r, fusMahnFeed junk 100 none ⟨some ⟨3, [XR.nan, XR.pinf, XR.ninf, XR.fin 1]⟩, none, ⟨3, [XR.nan, XR.nan, XR.nan]⟩⟩ c q = ok r := by
  obtain ⟨r, h, -⟩ := mahn_feed_safe junk 100 none
    (⟨some ⟨3, [XR.nan, XR.pinf, XR.ninf, XR.fin 1]⟩, none, ⟨3, [XR.nan, XR.nan, XR.nan]⟩⟩ : Sens XR) c q (by simp [Sens.WF, Vec.WF]) hc
  exact ⟨r, h⟩

end Verif
