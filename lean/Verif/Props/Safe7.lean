import Verif.Props.Safe4
import Verif.Spec.SafeFus

/-!
# Memory safety of quaternions, attitude, compass and sensor fusion for every content (C148)
-/

namespace Verif

open Out

set_option linter.unusedSectionVars false

variable {R : Type} [CReal R]

theorem Vec.WF.three {v : Vec R} (h : v.WF) (hs : v.sz = 3) : 3 ≤ v.data.length := by
  unfold Vec.WF at h
  omega

theorem Vec.Like.three {v w : Vec R} (l : v.Like w) (h : v.WF) (hs : v.sz = 3) : 3 ≤ w.data.length :=
  (l.wf h).three (l.1.trans hs)

/-! ## Quaternions -/

theorem wf_lit3 (x y z : R) : (⟨3, [x, y, z]⟩ : Vec R).WF := by simp [Vec.WF]

/-- C148. `zsl_quat_exp`, `zsl_quat_log` and `zsl_quat_pow`. -/
theorem quat_exp_log_pow_safe (q : Quat R) (e : R) :
    ((quatExp q).sat fun _ => True) ∧ ((quatLog q).sat fun _ => True) ∧ ((quatPow q e).sat fun _ => True) := by
  have hE : ∀ q : Quat R, (quatExp q).sat fun _ => True := by
    intro q
    unfold quatExp
    refine (vec_norm_safe _ (wf_lit3 q.i q.j q.k)).2.bind fun n _ => ?_
    refine (vec_to_unit_safe _ (wf_lit3 q.i q.j q.k) (by simp)).bind ?_
    rintro ⟨_, v⟩ l
    dsimp only at l ⊢
    have h3 := l.three (wf_lit3 _ _ _) rfl
    rw [rd_lt (by omega), ok_bind, rd_lt (by omega), ok_bind, rd_lt (by omega), ok_bind]
    exact satp trivial
  have hL : (quatLog q).sat fun _ => True := by
    unfold quatLog
    refine (vec_to_unit_safe _ (wf_lit3 q.i q.j q.k) (by simp)).bind ?_
    rintro ⟨_, v⟩ l
    dsimp only at l ⊢
    have h3 := l.three (wf_lit3 _ _ _) rfl
    rw [rd_lt (by omega), ok_bind, rd_lt (by omega), ok_bind, rd_lt (by omega), ok_bind]
    exact satp trivial
  refine ⟨hE q, hL, ?_⟩
  unfold quatPow
  exact hL.bind fun l _ => hE _

/-- C148. `zsl_quat_from_ang_vel`, for every size. -/
theorem quat_from_ang_vel_safe (w : Vec R) (h : w.WF) (qin : Quat R) (t : R) (qout : Quat R) :
    (quatFromAngVel w qin t qout).sat fun _ => True := by
  unfold quatFromAngVel
  split
  · exact (sat_ok _ _).2 trivial
  rename_i hs
  have h3 := h.three (by by_contra hc; exact hs (.inl hc))
  rw [rd_lt (by omega), ok_bind, rd_lt (by omega), ok_bind, rd_lt (by omega), ok_bind]
  exact satp trivial

/-- C148. `zsl_quat_from_ang_mom`, for every size. -/
theorem quat_from_ang_mom_safe (junk : ℕ → R) (l : Vec R) (h : l.WF) (qin : Quat R) (i t : R) (qout : Quat R) :
    (quatFromAngMom junk l qin i t qout).sat fun _ => True := by
  unfold quatFromAngMom
  split
  · exact (sat_ok _ _).2 trivial
  rename_i hs
  have h3 : l.sz = 3 := by by_contra hc; exact hs (.inl hc)
  refine (vec_copy_safe (Vec.uninit junk 3) l h (by simp [h3])).bind ?_
  rintro ⟨_, w⟩ ⟨l1, l2⟩
  dsimp only at l1 l2 ⊢
  refine (vec_scalar_safe w i (by unfold Vec.WF; rw [l1, l2, h3]; simp)).2.2.bind ?_
  rintro ⟨_, w'⟩ l
  dsimp only at l ⊢
  refine (quat_from_ang_vel_safe w' (l.wf (by unfold Vec.WF; rw [l1, l2, h3]; simp)) _ _ _).bind ?_
  rintro ⟨_, q⟩ _
  exact satp trivial

/-- C148. `zsl_quat_to_rot_mtx`, for every shape. -/
theorem quat_to_rot_mtx_safe (q : Quat R) (m : Mtx R) (h : m.WF) : (quatToRotMtx q m).sat fun p => m.Like p.2 := by
  unfold quatToRotMtx
  split
  · exact (sat_ok _ _).2 (.refl _)
  refine (mtx_set_safe m 0 0 _ h).bind ?_
  rintro ⟨_, m1⟩ l1
  refine (mtx_set_safe m1 0 1 _ (l1.wf h)).bind ?_
  rintro ⟨_, m2⟩ l2
  have l2 := l1.trans l2
  refine (mtx_set_safe m2 0 2 _ (l2.wf h)).bind ?_
  rintro ⟨_, m3⟩ l3
  have l3 := l2.trans l3
  refine (mtx_set_safe m3 1 0 _ (l3.wf h)).bind ?_
  rintro ⟨_, m4⟩ l4
  have l4 := l3.trans l4
  refine (mtx_set_safe m4 1 1 _ (l4.wf h)).bind ?_
  rintro ⟨_, m5⟩ l5
  have l5 := l4.trans l5
  refine (mtx_set_safe m5 1 2 _ (l5.wf h)).bind ?_
  rintro ⟨_, m6⟩ l6
  have l6 := l5.trans l6
  refine (mtx_set_safe m6 2 0 _ (l6.wf h)).bind ?_
  rintro ⟨_, m7⟩ l7
  have l7 := l6.trans l7
  refine (mtx_set_safe m7 2 1 _ (l7.wf h)).bind ?_
  rintro ⟨_, m8⟩ l8
  have l8 := l7.trans l8
  refine (mtx_set_safe m8 2 2 _ (l8.wf h)).bind ?_
  rintro ⟨_, m9⟩ l9
  exact satp (l8.trans l9)

/-- C148. `zsl_quat_from_rot_mtx`, for every shape. -/
theorem quat_from_rot_mtx_safe (m : Mtx R) (h : m.WF) (q : Quat R) : (quatFromRotMtx m q).sat fun _ => True := by
  unfold quatFromRotMtx
  split
  · exact (sat_ok _ _).2 trivial
  rename_i hs
  push Not at hs
  have h9 : 9 ≤ m.data.length := by
    unfold Mtx.WF at h
    rw [hs.1, hs.2] at h
    omega
  rw [rd_lt (by omega), ok_bind, rd_lt (by omega), ok_bind, rd_lt (by omega), ok_bind, rd_lt (by omega), ok_bind, rd_lt (by omega), ok_bind,
    rd_lt (by omega), ok_bind, rd_lt (by omega), ok_bind, rd_lt (by omega), ok_bind, rd_lt (by omega), ok_bind]
  exact satp trivial

/-- C148. `zsl_quat_to_axis_angle` and `zsl_quat_from_axis_angle`, for every size. -/
theorem quat_axis_angle_safe (junk : ℕ → R) (q : Quat R) (a : Vec R) (h : a.WF) (b : R) :
    ((quatToAxisAngle q a b).sat fun p => a.Like p.2.1) ∧ (quatFromAxisAngle junk a b q).sat fun _ => True := by
  constructor
  · unfold quatToAxisAngle
    split
    · exact (sat_ok _ _).2 (.refl _)
    rename_i hs
    have h3 := h.three (by by_contra hc; exact hs hc)
    dsimp only
    split <;>
    · rw [wr_lt _ (by omega), ok_bind, wr_lt _ (by simp; omega), ok_bind, wr_lt _ (by simp; omega), ok_bind]
      exact satp ⟨rfl, by simp⟩
  · unfold quatFromAxisAngle
    split
    · exact (sat_ok _ _).2 trivial
    rename_i hs
    have hs : a.sz = 3 := by by_contra hc; exact hs hc
    have h3 := h.three hs
    rw [rd_lt (by omega), ok_bind, rd_lt (by omega), ok_bind, rd_lt (by omega), ok_bind]
    dsimp only
    split
    · exact satp trivial
    refine (vec_copy_safe (Vec.uninit junk 3) a h (by simp [hs])).bind ?_
    rintro ⟨_, w⟩ ⟨l1, l2⟩
    dsimp only at l1 l2 ⊢
    have hw : w.WF := by unfold Vec.WF; rw [l1, l2, hs]; simp
    refine (vec_scalar_safe w _ hw).2.2.bind ?_
    rintro ⟨_, w'⟩ l
    dsimp only at l ⊢
    have := l.three hw (l1.trans hs)
    rw [rd_lt (by omega), ok_bind, rd_lt (by omega), ok_bind, rd_lt (by omega), ok_bind]
    exact satp trivial

/-! ## Attitude and compass -/

theorem copy3_safe (junk : ℕ → R) (v : Vec R) (h : v.WF) (hs : v.sz = 3) :
    (vecCopy (Vec.uninit junk 3) v).sat fun p => p.2.sz = 3 ∧ p.2.WF := by
  refine (vec_copy_safe (Vec.uninit junk 3) v h (by simp [hs])).mono fun p l => ⟨l.1.trans hs, ?_⟩
  unfold Vec.WF
  rw [l.1, l.2, hs]
  simp

theorem unit3_safe (v : Vec R) (hs : v.sz = 3) (h : v.WF) : (vecToUnit v).sat fun p => v.Like p.2 ∧ 3 ≤ p.2.data.length :=
  (vec_to_unit_safe v h (by omega)).mono fun _ l => ⟨l, l.three h hs⟩

/-- C148. `zsl_att_from_accel`, for every size. -/
theorem att_from_accel_safe (junk : ℕ → R) (v : Vec R) (h : v.WF) (a : Attitude R) : (attFromAccel junk v a).sat fun _ => True := by
  unfold attFromAccel
  split
  · exact (sat_ok _ _).2 trivial
  rename_i hs
  have hs : v.sz = 3 := by by_contra hc; exact hs hc
  refine (copy3_safe junk v h hs).bind ?_
  rintro ⟨_, w⟩ ⟨l1, l2⟩
  refine (unit3_safe w l1 l2).bind ?_
  rintro ⟨_, u⟩ ⟨_, hu⟩
  dsimp only at hu ⊢
  rw [rd_lt (by omega), ok_bind, rd_lt (by omega), ok_bind, rd_lt (by omega), ok_bind]
  exact satp trivial

/-- C148. `zsl_att_from_accelmag`, for every pair of sizes. -/
theorem att_from_accelmag_safe (junk : ℕ → R) (v m : Vec R) (h : v.WF) (hm : m.WF) (a : Attitude R) :
    (attFromAccelmag junk v m a).sat fun _ => True := by
  unfold attFromAccelmag
  split
  · exact (sat_ok _ _).2 trivial
  rename_i hs
  have hs : m.sz = 3 := by by_contra hc; exact hs (.inr hc)
  refine (copy3_safe junk m hm hs).bind ?_
  rintro ⟨_, w⟩ ⟨l1, l2⟩
  refine (unit3_safe w l1 l2).bind ?_
  rintro ⟨_, u⟩ ⟨_, hu⟩
  dsimp only at hu ⊢
  refine (att_from_accel_safe junk v h _).bind ?_
  rintro ⟨_, b⟩ _
  dsimp only
  rw [rd_lt (by omega), ok_bind, rd_lt (by omega), ok_bind, rd_lt (by omega), ok_bind]
  exact satp trivial

/-- C148. `zsl_att_accel_angle`, for every pair of sizes. -/
theorem att_accel_angle_safe (junk : ℕ → R) (v w : Vec R) (hv : v.WF) (hw : w.WF) (b : R) : (attAccelAngle junk v w b).sat fun _ => True := by
  unfold attAccelAngle
  split
  · exact (sat_ok _ _).2 trivial
  refine (vec_norm_safe v hv).2.bind fun _ _ => (vec_norm_safe w hw).2.bind fun _ _ => (vec_dot_safe v w _ hv hw).bind ?_
  rintro ⟨_, d⟩ _
  exact satp trivial

/-- C148. `zsl_comp_magn_north` and `zsl_comp_geo_north`, for every size. -/
theorem comp_north_safe (m : Vec R) (h : m.WF) (dec d : R) :
    ((compMagnNorth m d).sat fun _ => True) ∧ (compGeoNorth m dec d).sat fun _ => True := by
  have hM : (compMagnNorth m d).sat fun _ => True := by
    unfold compMagnNorth
    split
    · exact (sat_ok _ _).2 trivial
    rename_i hs
    have h3 := h.three (by by_contra hc; exact hs hc)
    rw [rd_lt (by omega), ok_bind]
    split
    · rw [rd_lt (by omega), ok_bind]
      split <;> exact satp trivial
    split
    · rw [rd_lt (by omega), ok_bind]
      exact satp trivial
    split
    · rw [rd_lt (by omega), ok_bind]
      exact satp trivial
    · exact satp trivial
  refine ⟨hM, ?_⟩
  unfold compGeoNorth
  split
  · exact (sat_ok _ _).2 trivial
  refine hM.bind ?_
  rintro ⟨_, x⟩ _
  exact satp trivial

/-- A reading that holds a NaN and an infinity. -/
example (q : Quat XR) : (quatFromAngVel ⟨3, [XR.nan, XR.pinf, XR.fin 1]⟩ q XR.ninf q).sat fun _ => True :=
  quat_from_ang_vel_safe _ (by simp [Vec.WF]) q _ q

/-- A rotation matrix of NaNs. -/
example (q : Quat XR) (junk : ℕ → XR) : ∃ r, quatFromRotMtx ⟨3, 3, List.replicate 9 XR.nan⟩ q = ok r := by
  obtain ⟨r, h, -⟩ := quat_from_rot_mtx_safe (⟨3, 3, List.replicate 9 XR.nan⟩ : Mtx XR) (by simp [Mtx.WF]) q
  exact ⟨r, h⟩

end Verif
