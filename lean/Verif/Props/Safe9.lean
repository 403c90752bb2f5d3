import Verif.Props.Safe8

/-!
# Memory safety of the Kalman filter for every content and every shape of the covariance (C148)
-/

namespace Verif

open Out

set_option linter.unusedSectionVars false

variable {R : Type} [CReal R]

/-- `m` has the given shape and its buffer holds it. -/
def Mtx.Is (m : Mtx R) (r c : ℕ) : Prop := m.rows = r ∧ m.cols = c ∧ m.WF

theorem is_uninit (junk : ℕ → R) (r c : ℕ) : (Mtx.uninit junk r c).Is r c := ⟨rfl, rfl, Mtx.wf_uninit _ _ _⟩

theorem Mtx.Like.is {m n : Mtx R} {r c : ℕ} (l : m.Like n) (h : m.Is r c) : n.Is r c := ⟨l.1.trans h.1, l.2.1.trans h.2.1, l.wf h.2.2⟩

theorem Mtx.Is.len {m : Mtx R} {r c : ℕ} (h : m.Is r c) : r * c ≤ m.data.length := by
  have := h.2.2
  unfold Mtx.WF at this
  rwa [h.1, h.2.1] at this

theorem fromArr_is (junk : ℕ → R) (r c : ℕ) (a : List R) (h : r * c ≤ a.length) :
    (mtxFromArr (Mtx.uninit junk r c) a).sat fun p => p.2.Is r c :=
  (mtx_from_arr_safe _ a (Mtx.wf_uninit junk r c) (by simpa using h)).mono fun _ l => l.is (is_uninit junk r c)

theorem mult_is (junk : ℕ → R) (r c : ℕ) (a b : Mtx R) (ha : a.WF) (hb : b.WF) :
    (mtxMult a b (Mtx.uninit junk r c)).sat fun p => p.2.Is r c :=
  (mtx_mult_safe a b _ ha hb (Mtx.wf_uninit junk r c)).mono fun _ l => l.is (is_uninit junk r c)

theorem trans_is (junk : ℕ → R) (r c : ℕ) (a : Mtx R) (ha : a.WF) (h0 : 0 < a.cols) :
    (mtxTrans junk a (Mtx.uninit junk r c)).sat fun p => p.2.Is r c :=
  (mtx_trans_safe junk a _ ha (Mtx.wf_uninit junk r c) h0).mono fun _ l => l.is (is_uninit junk r c)

theorem kalmPredict_safe (junk : ℕ → R) (f : ℕ) (v : R) (g : Vec R) (P : Mtx R) (q : Quat R) (hg : g.WF) (g3 : g.sz = 3) (hP : P.WF) :
    (kalmPredict junk f v g P q).sat fun p => P.Like p.1 := by
  have h3 := hg.three g3
  unfold kalmPredict
  dsimp only
  rw [rd_lt (by omega), ok_bind, rd_lt (by omega), ok_bind, rd_lt (by omega), ok_bind]
  refine (fromArr_is junk 4 4 _ (by simp [kalmF])).bind fun ⟨_, F⟩ hF => ?_
  refine (trans_is junk 4 4 F hF.2.2 (by rw [hF.2.1]; omega)).bind fun ⟨_, Ft⟩ hFt => ?_
  refine (fromArr_is junk 4 3 _ (by simp [kalmW])).bind fun ⟨_, W⟩ hW => ?_
  refine (trans_is junk 3 4 W hW.2.2 (by rw [hW.2.1]; omega)).bind fun ⟨_, Wt⟩ hWt => ?_
  refine (mult_is junk 4 4 W Wt hW.2.2 hWt.2.2).bind fun ⟨_, Q⟩ hQ => ?_
  refine (mtx_scalar_mult_safe Q _ hQ.2.2).bind fun ⟨_, Q'⟩ lQ => ?_
  have hQ' := lQ.is hQ
  refine (mult_is junk 4 4 F P hF.2.2 hP).bind fun ⟨_, FP⟩ hFP => ?_
  refine (mtx_mult_safe FP Ft P hFP.2.2 hFt.2.2 hP).bind fun ⟨_, P1⟩ l1 => ?_
  refine (mtx_add_sub_safe P1 Q' P1 (l1.wf hP) hQ'.2.2 (l1.wf hP)).2.2.1.bind fun ⟨_, P2⟩ l2 => ?_
  refine (quat_from_ang_vel_safe g hg _ _ _).bind fun ⟨_, q'⟩ _ => ?_
  exact satp (l1.trans l2)

theorem kalmNoise_safe (junk : ℕ → R) (a m : R) : (kalmNoise junk a m).sat fun r => r.Is 6 6 := by
  unfold kalmNoise
  refine (mtx_init_safe _ (Mtx.wf_uninit junk 6 6)).2.2.1.bind fun ⟨_, r0⟩ l => ?_
  have h0 := l.is (is_uninit junk 6 6)
  refine (mtx_set_safe r0 0 0 _ h0.2.2).bind fun ⟨_, r1⟩ l => ?_
  have h1 := l.is h0
  refine (mtx_set_safe r1 1 1 _ h1.2.2).bind fun ⟨_, r2⟩ l => ?_
  have h2 := l.is h1
  refine (mtx_set_safe r2 2 2 _ h2.2.2).bind fun ⟨_, r3⟩ l => ?_
  have h3 := l.is h2
  refine (mtx_set_safe r3 3 3 _ h3.2.2).bind fun ⟨_, r4⟩ l => ?_
  have h4 := l.is h3
  refine (mtx_set_safe r4 4 4 _ h4.2.2).bind fun ⟨_, r5⟩ l => ?_
  have h5 := l.is h4
  refine (mtx_set_safe r5 5 5 _ h5.2.2).bind fun ⟨_, r6⟩ l => ?_
  exact satp (l.is h5)

theorem kalmCorrect_safe (junk : ℕ → R) (vA vM : R) (z hx : Mtx R) (hd : List R) (P : Mtx R) (q : Quat R) (hz : z.WF) (hh : hx.WF)
    (hl : 24 ≤ hd.length) (hP : P.WF) : (kalmCorrect junk vA vM z hx hd P q).sat fun p => P.Like p.1 := by
  unfold kalmCorrect
  refine (fromArr_is junk 6 4 hd (by omega)).bind fun ⟨_, H0⟩ h0 => ?_
  refine (mtx_scalar_mult_safe H0 _ h0.2.2).bind fun ⟨_, H⟩ l => ?_
  have hH := l.is h0
  refine (trans_is junk 4 6 H hH.2.2 (by rw [hH.2.1]; omega)).bind fun ⟨_, Ht⟩ hHt => ?_
  refine (kalmNoise_safe junk vA vM).bind fun r hr => ?_
  refine (mtx_add_sub_safe z hx _ hz hh (Mtx.wf_uninit junk 6 1)).2.1.bind fun ⟨_, v⟩ lv => ?_
  have hv := lv.is (is_uninit junk 6 1)
  refine (mult_is junk 6 4 H P hH.2.2 hP).bind fun ⟨_, HP⟩ hHP => ?_
  refine (mult_is junk 6 6 HP Ht hHP.2.2 hHt.2.2).bind fun ⟨_, HPHt⟩ hHPHt => ?_
  refine (mtx_add_sub_safe HPHt r _ hHPHt.2.2 hr.2.2 (Mtx.wf_uninit junk 6 6)).1.bind fun ⟨_, S⟩ lS => ?_
  have hS := lS.is (is_uninit junk 6 6)
  refine (mtx_inv_safe junk S _ hS.2.2 (Mtx.wf_uninit junk 6 6) (by rw [hS.1]; omega)).bind fun ⟨_, Si⟩ lSi => ?_
  have hSi := lSi.is (is_uninit junk 6 6)
  refine (mult_is junk 4 6 P Ht hP hHt.2.2).bind fun ⟨_, PHt⟩ hPHt => ?_
  refine (mult_is junk 4 6 PHt Si hPHt.2.2 hSi.2.2).bind fun ⟨_, K⟩ hK => ?_
  refine (mtx_init_safe _ (Mtx.wf_uninit junk 4 4)).2.2.1.bind fun ⟨_, i0⟩ li => ?_
  have hi := li.is (is_uninit junk 4 4)
  refine (mult_is junk 4 4 K H hK.2.2 hH.2.2).bind fun ⟨_, KH⟩ hKH => ?_
  refine (mtx_add_sub_safe i0 KH i0 hi.2.2 hKH.2.2 hi.2.2).2.2.2.bind fun ⟨_, i1⟩ li1 => ?_
  refine (mtx_mult_safe i1 P P (li1.is hi).2.2 hP hP).bind fun ⟨_, P'⟩ lP => ?_
  refine (mult_is junk 4 1 K v hK.2.2 hv.2.2).bind fun ⟨_, Kv⟩ hKv => ?_
  have := hKv.len
  dsimp only at this ⊢
  rw [rd_lt (by omega), ok_bind, rd_lt (by omega), ok_bind, rd_lt (by omega), ok_bind, rd_lt (by omega), ok_bind]
  exact satp lP

theorem kalmMeas_safe (a m : Vec R) (ha : 3 ≤ a.data.length) (hm : 3 ≤ m.data.length) : (kalmMeas a m).sat fun z => z.WF := by
  unfold kalmMeas
  rw [rd_lt (by omega), ok_bind, rd_lt (by omega), ok_bind, rd_lt (by omega), ok_bind, rd_lt (by omega), ok_bind,
    rd_lt (by omega), ok_bind, rd_lt (by omega), ok_bind]
  exact satp (by simp [Mtx.WF])

theorem fusKalman_safe (junk : ℕ → R) (f : ℕ) (incl : Option R) (c : KalmCfg R) (s : Sens3 R) (q : Quat R) (h : s.WF) (hP : c.P.WF) :
    (fusKalman junk f incl c s q).sat fun p => s.Like p.2.1 ∧ c.P.Like p.2.2.1 ∧
      ((∃ a m g, s = ⟨some a, some m, some g⟩ ∧ a.sz = 3 ∧ m.sz = 3 ∧ g.sz = 3) → p.1 = 0) := by
  obtain ⟨a, m, g⟩ := s
  unfold fusKalman
  split
  · rename_i a m g ea em eg
    dsimp only at ea em eg
    subst ea em eg
    split
    · rename_i hs
      refine (sat_ok _ _).2 ⟨⟨.refl _, .refl _, .refl _⟩, .refl _, ?_⟩
      rintro ⟨_, _, _, e, h1, h2, h3⟩
      cases e
      exact absurd hs (by omega)
    rename_i hs
    push Not at hs
    obtain ⟨a3, m3, g3⟩ := hs
    refine (kalmPredict_safe junk f c.varG g c.P q (h.2.2 g rfl) g3 hP).bind fun ⟨P1, q1⟩ l1 => ?_
    refine (unit3_safe a a3 (h.1 a rfl)).bind fun ⟨_, a'⟩ ⟨la, ha⟩ => ?_
    refine (unit3_safe m m3 (h.2.1 m rfl)).bind fun ⟨_, m'⟩ ⟨lm, hm⟩ => ?_
    refine (kalmMeas_safe a' m' ha hm).bind fun z hz => ?_
    refine (quatOfVec_safe m' hm).bind fun qm _ => ?_
    dsimp only
    refine (kalmCorrect_safe junk c.varA c.varM z _ _ P1 _ hz (by simp [kalmModel, Mtx.WF]) (by simp [kalmH]) (l1.wf hP)).bind fun ⟨P2, q2⟩ l2 => ?_
    exact satp ⟨⟨la, lm, .refl _⟩, l1.trans l2, fun _ => rfl⟩
  · rename_i hn
    refine (sat_ok _ _).2 ⟨⟨.refl _, .refl _, .refl _⟩, .refl _, ?_⟩
    rintro ⟨_, _, _, e, _⟩
    cases e
    exact absurd rfl (hn _ _ _ rfl rfl)

theorem kalmQuatInit_safe (junk : ℕ → R) (a m : Option (Vec R)) (q : Quat R) (ha : ∀ v ∈ a, v.WF) (hm : ∀ v ∈ m, v.WF) :
    (kalmQuatInit junk a m q).sat fun _ => True := by
  unfold kalmQuatInit
  split
  · rename_i a m
    split
    · exact (sat_ok _ _).2 trivial
    rename_i hs
    push Not at hs
    have ha := ha a rfl
    have hm := hm m rfl
    have u3 := Vec.wf_uninit junk 3
    refine (vec_cross_safe a m _ ha hm u3).1.bind fun ⟨_, w⟩ lw => ?_
    refine (vec_cross_safe w a _ (lw.wf u3) ha u3).1.bind fun ⟨_, v⟩ lv => ?_
    refine (copy3_safe junk a ha hs.1).bind fun ⟨_, u⟩ ⟨u1, u2⟩ => ?_
    refine (unit3_safe v lv.1 (lv.wf u3)).bind fun ⟨_, v'⟩ ⟨_, hv⟩ => ?_
    refine (unit3_safe w lw.1 (lw.wf u3)).bind fun ⟨_, w'⟩ ⟨_, hw⟩ => ?_
    refine (unit3_safe u u1 u2).bind fun ⟨_, u'⟩ ⟨_, hu⟩ => ?_
    refine (mtx_set_col_safe _ 0 v'.data (Mtx.wf_uninit junk 3 3) hv).bind fun ⟨_, x0⟩ l0 => ?_
    have i0 := l0.is (is_uninit junk 3 3)
    refine (mtx_set_col_safe x0 1 w'.data i0.2.2 (by rw [i0.1]; exact hw)).bind fun ⟨_, x1⟩ l1 => ?_
    have i1 := l1.is i0
    refine (mtx_set_col_safe x1 2 u'.data i1.2.2 (by rw [i1.1]; exact hu)).bind fun ⟨_, x2⟩ l2 => ?_
    refine (quat_from_rot_mtx_safe x2 (l2.is i1).2.2 q).bind fun ⟨_, q'⟩ _ => ?_
    exact satp trivial
  · exact (sat_ok _ _).2 trivial

/-- C148. `zsl_fus_kalm_feed`, for all sizes of the readings, with or without them, and for every shape of the covariance; a call with three
readings of size three and variances that are not negative returns 0. -/
theorem kalm_feed_safe (junk : ℕ → R) (f : ℕ) (incl : Option R) (s : Sens3 R) (c : KalmCfg R) (q : Quat R) (started : Bool) (h : s.WF)
    (hP : c.P.WF) :
    (fusKalmFeed junk f incl s c q started).sat fun p => s.Like p.2.1 ∧ c.P.Like p.2.2.1.P ∧
      ((∃ a m g, s = ⟨some a, some m, some g⟩ ∧ a.sz = 3 ∧ m.sz = 3 ∧ g.sz = 3) →
        (CReal.lt c.varG (lit 0) || CReal.lt c.varA (lit 0) || CReal.lt c.varM (lit 0)) = false → p.1 = 0) := by
  unfold fusKalmFeed
  split
  · rename_i hv
    refine (sat_ok _ _).2 ⟨⟨optLike.refl _, optLike.refl _, optLike.refl _⟩, .refl _, fun _ h => ?_⟩
    rw [h] at hv
    cases hv
  split
  · exact (fusKalman_safe junk f incl c s q h hP).bind fun ⟨rc, s', P', q'⟩ ⟨h1, h2, h3⟩ => satp ⟨h1, h2, fun hs _ => h3 hs⟩
  · refine (kalmQuatInit_safe junk s.a s.m q h.1 h.2.1).bind fun ⟨_, q1, b1⟩ _ => ?_
    refine Out.sat.bind (P := fun p => c.P.Like p.2.1) ?_ fun ⟨_, P1, b2⟩ l1 => ?_
    · unfold kalmPInit
      refine ite_sat (fun _ => (sat_ok _ _).2 (.refl _)) fun _ => ?_
      exact (mtx_init_safe c.P hP).2.2.1.bind fun ⟨_, P⟩ l => satp l
    · exact (fusKalman_safe junk f incl { c with P := P1 } s q1 h (l1.wf hP)).bind fun ⟨rc, s', P', q'⟩ ⟨h1, h2, h3⟩ =>
        satp ⟨h1, l1.trans h2, fun hs _ => h3 hs⟩

/-- Readings and covariance of NaNs: the filter returns 0. -/
example (junk : ℕ → XR) (q : Quat XR) : ∃ r, fusKalmFeed junk 100 none
    ⟨some ⟨3, [XR.nan, XR.pinf, XR.ninf]⟩, some ⟨3, [XR.nan, XR.nan, XR.nan]⟩, some ⟨3, [XR.nan, XR.nan, XR.nan]⟩⟩
    ⟨XR.nan, XR.nan, XR.nan, ⟨4, 4, List.replicate 16 XR.nan⟩⟩ q true = ok r ∧ r.1 = 0 := by
  obtain ⟨r, h, -, -, h0⟩ := kalm_feed_safe junk 100 none
    (⟨some ⟨3, [XR.nan, XR.pinf, XR.ninf]⟩, some ⟨3, [XR.nan, XR.nan, XR.nan]⟩, some ⟨3, [XR.nan, XR.nan, XR.nan]⟩⟩ : Sens3 XR)
    ⟨XR.nan, XR.nan, XR.nan, ⟨4, 4, List.replicate 16 XR.nan⟩⟩ q true (by simp [Sens3.WF, Vec.WF]) (by simp [Mtx.WF])
  exact ⟨r, h, h0 ⟨_, _, _, rfl, rfl, rfl, rfl⟩ rfl⟩

end Verif
