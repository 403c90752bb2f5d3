import Verif.Props.Safe10
import Verif.Model.Interp
import Verif.Model.Calibration

/-!
# Memory safety of interpolation and calibration for every content (C149)

The tables of the interpolation functions may hold anything: the points need not be in order and may be NaN.
-/

namespace Verif

open Out

set_option linter.unusedSectionVars false

variable {R : Type} [CReal R]

/-! ### Interpolation -/

/-- The bisection stays between its limits, and the point it ends at is the first one or passed the comparison. -/
theorem findXLoop_in (xy : List (XY R)) (x : R) (order : Bool) (fuel lo hi : ℕ) (hf : hi - lo ≤ fuel) (hlt : lo < hi)
    (hh : hi ≤ xy.length) (h31 : hi < 2147483648) :
    (findXLoop fuel xy x order lo hi).sat fun r => lo ≤ r ∧ r < hi ∧
      (r = lo ∨ ∃ p, rd xy r = ok p ∧ ((CReal.ge x p.x && order) || (CReal.le x p.x && !order)) = true) := by
  induction fuel generalizing lo hi with
  | zero => omega
  | succ fuel ih =>
    unfold findXLoop
    refine ite_sat (fun hgt => ?_) fun _ => (sat_ok _ _).2 ⟨le_rfl, hlt, .inl rfl⟩
    have hm : toU32 (hi + lo) / 2 = (hi + lo) / 2 := by
      unfold toU32
      rw [Nat.mod_eq_of_lt (by omega)]
    dsimp only
    rw [hm, rd_lt (by omega), ok_bind]
    refine ite_sat (fun hc => ?_) fun hc => ?_
    · refine (ih _ _ (by omega) (by omega) hh h31).mono ?_
      rintro r ⟨h1, h2, h3⟩
      refine ⟨by omega, h2, .inr ?_⟩
      rcases h3 with rfl | h3
      · exact ⟨_, rd_lt (by omega), hc⟩
      · exact h3
    · refine (ih _ _ (by omega) (by omega) (by omega) (by omega)).mono ?_
      rintro r ⟨h1, h2, h3⟩
      exact ⟨h1, by omega, h3⟩

/-- The law of the comparisons that the search relies on: what is at least and not above, or at most and not below, is equal. NaN meets it,
since no comparison with NaN holds. -/
def CmpLaw (R : Type) [CReal R] : Prop :=
  ∀ a b : R, (CReal.ge a b = true → CReal.gt a b = false → CReal.eq a b = true) ∧
    (CReal.le a b = true → CReal.lt a b = false → CReal.eq a b = true)

theorem toI32_small {n : ℕ} (h : n < 2147483648) : toI32 n = (n : Int) := by
  unfold toI32 toU32
  rw [Nat.mod_eq_of_lt (by omega), if_pos h]

/-- C149. `zsl_interp_find_x` reads only its table, whatever the points are; an index it reports with code 0 has a right neighbour in the table. -/
theorem interp_find_x_safe (law : CmpLaw R) (xy : List (XY R)) (n : ℕ) (x : R) (hn : n ≤ xy.length) (h31 : n < 2147483648) :
    (interpFindX xy n x).sat fun p => p.1 = 0 → 0 ≤ p.2 ∧ p.2 + 1 < (n : Int) := by
  unfold interpFindX
  refine ite_sat (fun _ => (sat_ok _ _).2 (by simp [EINVAL])) fun h2 => ?_
  have hl : n - 1 < xy.length := by omega
  rw [rd_lt hl, ok_bind, rd_lt (show 0 < xy.length by omega), ok_bind]
  dsimp only
  refine ite_sat (fun _ => satp (by simp [EINVAL])) fun c1 => ?_
  refine ite_sat (fun _ => satp (by simp [EINVAL])) fun c2 => ?_
  have hU : toU32 n = n := Nat.mod_eq_of_lt (by omega)
  rw [hU]
  refine (findXLoop_in xy x _ n 0 n (by omega) (by omega) hn h31).bind fun r hr => ?_
  refine ite_sat (fun _ => satp fun _ => ⟨le_rfl, by dsimp only; omega⟩) fun _ => ?_
  refine ite_sat (fun _ => satp fun _ => ?_) fun ne => satp fun _ => ?_
  · dsimp only
    rw [toI32_small (by omega)]
    omega
  · dsimp only
    have hr' : r ≠ n - 1 := by
      rintro rfl
      rcases hr.2.2 with h0 | ⟨p, hp, hc⟩
      · omega
      · rw [rd_lt hl] at hp
        cases hp
        apply ne
        rcases hO : CReal.ge xy[n - 1].x xy[0].x with _ | _
        · simp only [hO, Bool.and_false, Bool.not_false, Bool.and_true, Bool.false_or] at c1 hc
          exact (law _ _).2 hc (by simpa using c1)
        · simp only [hO, Bool.and_true, Bool.not_true, Bool.and_false, Bool.or_false] at c1 hc
          exact (law _ _).1 hc (by simpa using c1)
    rw [toI32_small (by omega)]
    omega

theorem rdI_pair {xy : List (XY R)} {i : Int} {n : ℕ} (hn : n ≤ xy.length) (h0 : 0 ≤ i) (h1 : i + 1 < (n : Int)) :
    (∃ p, rdI xy i = ok p) ∧ ∃ p, rdI xy (i + 1) = ok p := by
  unfold rdI
  rw [if_pos h0, if_pos (by omega)]
  exact ⟨⟨_, rd_lt (by omega)⟩, ⟨_, rd_lt (by omega)⟩⟩

/-- C149. `zsl_interp_nn_arr` and `zsl_interp_lin_y_arr`, for every table and every point. -/
theorem interp_arr_safe (law : CmpLaw R) (xy : List (XY R)) (n : ℕ) (x y : R) (hn : n ≤ xy.length) (h31 : n < 2147483648) :
    ((interpNnArr xy n x y).sat fun _ => True) ∧ (interpLinYArr xy n x).sat fun _ => True := by
  constructor
  · unfold interpNnArr
    refine (interp_find_x_safe law xy n x hn h31).bind ?_
    rintro ⟨rc, i⟩ h
    dsimp only at h ⊢
    refine ite_sat (fun _ => satp trivial) fun hr => ?_
    push Not at hr
    obtain ⟨⟨p, hp⟩, ⟨q, hq⟩⟩ := rdI_pair hn (h hr).1 (h hr).2
    rw [hp, ok_bind, hq, ok_bind]
    exact ite_sat (fun _ => satp trivial) fun _ => satp trivial
  · unfold interpLinYArr
    refine (interp_find_x_safe law xy n x hn h31).bind ?_
    rintro ⟨rc, i⟩ h
    dsimp only at h ⊢
    refine ite_sat (fun _ => satp trivial) fun hr => ?_
    push Not at hr
    obtain ⟨⟨p, hp⟩, ⟨q, hq⟩⟩ := rdI_pair hn (h hr).1 (h hr).2
    rw [hp, ok_bind, hq, ok_bind]
    exact ite_sat (fun _ => satp trivial) fun _ => satp trivial

/-- C149. `zsl_interp_cubic_calc`, for every table, boundary values and outcome of the allocation; the table keeps its length. -/
theorem interp_cubic_calc_safe (alloc : Bool) (junk : ℕ → R) (xyc : List (XYC R)) (n : ℕ) (yp1 ypn : R) (hn : n ≤ xyc.length) :
    (interpCubicCalc alloc junk xyc n yp1 ypn).sat fun p => p.2.length = xyc.length := by
  unfold interpCubicCalc
  refine ite_sat (fun _ => by simp) fun h3 => ite_sat (fun _ => by simp) fun _ => ?_
  refine Out.sat.bind (P := fun s : List (XYC R) × List R => s.1.length = xyc.length ∧ s.2.length = n - 1) ?_ ?_
  · unfold cubicStart
    rw [rd_lt (by omega), ok_bind]
    refine ite_sat (fun _ => ?_) fun _ => ?_
    · rw [wr_lt _ (by simp; omega), ok_bind, wr_lt _ (by omega), ok_bind]
      exact satp (by simp)
    · rw [wr_lt _ (by omega), ok_bind, rd_lt (by simp; omega), ok_bind, rd_lt (by simp; omega), ok_bind, wr_lt _ (by simp; omega), ok_bind]
      exact satp (by simp)
  rintro ⟨t, u⟩ ⟨ht, hu⟩
  dsimp only at ht hu ⊢
  refine Out.sat.bind (P := fun s : List (XYC R) × List R => s.1.length = xyc.length ∧ s.2.length = n - 1)
    (forN_inv _ ⟨ht, hu⟩ fun i hi s hs => ?_) ?_
  · unfold cubicForward
    obtain ⟨t, u⟩ := s
    dsimp only at hs ⊢
    rw [rd_lt (by omega), ok_bind, rd_lt (by omega), ok_bind, rd_lt (by omega), ok_bind, wr_lt _ (by omega), ok_bind, wr_lt _ (by omega), ok_bind,
      rd_lt (by simp; omega), ok_bind, rd_lt (by simp; omega), ok_bind, wr_lt _ (by simp; omega), ok_bind]
    exact satp (by simpa using hs)
  rintro ⟨t, u⟩ ⟨ht, hu⟩
  dsimp only at ht hu ⊢
  refine Out.sat.bind (P := fun s : List (XYC R) => s.length = xyc.length) ?_ fun t' ht' => ?_
  · unfold cubicEnd
    rw [rd_lt (by omega), ok_bind, rd_lt (by omega), ok_bind, rd_lt (by omega), ok_bind]
    dsimp only
    rw [wr_lt _ (by omega)]
    exact (sat_ok _ _).2 (by simpa using ht)
  refine Out.sat.bind (P := fun s : List (XYC R) => s.length = xyc.length) (forN_inv _ ht' fun k hk s hs => ?_) fun _ h => satp h
  unfold cubicBack
  rw [rd_lt (by omega), ok_bind, rd_lt (by omega), ok_bind, rd_lt (by omega), ok_bind, wr_lt _ (by omega)]
  exact (sat_ok _ _).2 (by simpa using hs)

theorem cubicSearch_in (xyc : List (XYC R)) (x : R) (fuel lo hi : ℕ) (hf : hi - lo ≤ fuel) (hlt : lo < hi) (hh : hi < xyc.length)
    (h30 : hi ≤ 1073741824) : (cubicSearch fuel xyc x lo hi).sat fun p => p.1 < xyc.length ∧ p.2 < xyc.length := by
  induction fuel generalizing lo hi with
  | zero => omega
  | succ fuel ih =>
    unfold cubicSearch
    refine ite_sat (fun hgt => ?_) fun _ => (sat_ok _ _).2 ⟨by dsimp only; omega, hh⟩
    dsimp only
    rw [if_neg (by omega), rd_lt (by omega), ok_bind]
    exact ite_sat (fun _ => ih _ _ (by omega) (by omega) (by omega) (by omega)) fun _ => ih _ _ (by omega) (by omega) hh h30

/-- C149. `zsl_interp_cubic_arr`, for every table, with at most 2^30 points so that the sum of two indices fits an `int`. -/
theorem interp_cubic_arr_safe (xyc : List (XYC R)) (n : ℕ) (x y : R) (hn : n ≤ xyc.length) (h30 : n ≤ 1073741824) :
    (interpCubicArr xyc n x y).sat fun _ => True := by
  unfold interpCubicArr
  refine ite_sat (fun _ => by simp) fun h3 => ?_
  rw [rd_lt (by omega), ok_bind, rd_lt (by omega), ok_bind]
  refine Out.sat.bind (P := fun p : ℕ × ℕ => p.1 < xyc.length ∧ p.2 < xyc.length) ?_ ?_
  · refine ite_sat (fun _ => (sat_ok _ _).2 ⟨by dsimp only; omega, by dsimp only; omega⟩) fun _ => ?_
    exact cubicSearch_in xyc x n 0 (n - 1) (by omega) (by omega) (by omega) (by omega)
  · rintro ⟨a, b⟩ ⟨ha, hb⟩
    dsimp only at ha hb ⊢
    rw [rd_lt ha, ok_bind, rd_lt hb, ok_bind]
    exact ite_sat (fun _ => satp trivial) fun _ => satp trivial

/-! ### Calibration -/

/-- C149. `zsl_fus_cal_rot_mtx`. -/
theorem cal_rot_mtx_safe (junk : ℕ → R) (v : Vec R) (m : Mtx R) (r : Vec R) (hv : v.WF) (hm : m.WF) (hr : r.WF) :
    (calRotMtx junk v m r).sat fun p => r.Like p.2 := by
  unfold calRotMtx
  refine ite_sat (fun _ => by simp [Vec.Like]) fun hs => ?_
  push Not at hs
  refine (fromArr_is junk 3 1 v.data (by unfold Vec.WF at hv; omega)).bind fun ⟨_, vm⟩ h1 => ?_
  refine (mult_is junk 3 1 m vm hm h1.2.2).bind fun ⟨_, mv⟩ h2 => ?_
  have h3 := h2.len
  dsimp only at h3
  exact (vec_from_arr_safe r mv.data hr (by omega)).bind fun ⟨_, r'⟩ l => satp l

/-- C149. `zsl_fus_cal_rot_axis_angle`. -/
theorem cal_rot_axis_angle_safe (junk : ℕ → R) (v a : Vec R) (b : R) (r : Vec R) (hv : v.WF) (ha : a.WF) (hr : r.WF) :
    (calRotAxisAngle junk v a b r).sat fun p => r.Like p.2 := by
  unfold calRotAxisAngle
  refine ite_sat (fun _ => by simp [Vec.Like]) fun hs => ?_
  refine (quat_axis_angle_safe junk _ a ha b).2.bind fun ⟨_, q⟩ _ => ?_
  refine (quat_to_rot_mtx_safe q _ (Mtx.wf_uninit junk 3 3)).bind fun ⟨_, m⟩ l => ?_
  exact (cal_rot_mtx_safe junk v m r hv (l.wf (Mtx.wf_uninit junk 3 3)) hr).bind fun ⟨_, r'⟩ l => satp l

/-- C149. `zsl_fus_cal_corr_vec`, for vectors that are not empty. -/
theorem cal_corr_vec_safe (junk : ℕ → R) (v : Vec R) (K : Mtx R) (b o : Vec R) (hv : v.WF) (hK : K.WF) (hb : b.WF) (ho : o.WF)
    (h0 : 0 < v.sz) : (calCorrVec junk v K b o).sat fun p => o.Like p.2 := by
  unfold calCorrVec
  refine ite_sat (fun _ => by simp [Vec.Like]) fun hs => ?_
  push Not at hs
  rw [if_neg (by omega)]
  refine (vec_add_safe v b _ hv hb (Vec.wf_uninit junk _)).bind fun ⟨_, vb⟩ l1 => ?_
  have e1 : vb.data.length = v.sz := by simpa using l1.2
  refine (fromArr_is junk v.sz 1 vb.data (by omega)).bind fun ⟨_, VB⟩ h1 => ?_
  refine (mult_is junk v.sz 1 K VB hK h1.2.2).bind fun ⟨_, KVB⟩ h2 => ?_
  have h3 := h2.len
  dsimp only at h3
  exact (vec_from_arr_safe o KVB.data ho (by omega)).bind fun ⟨_, r'⟩ l => satp l

theorem calRow_safe (junk : ℕ → R) (m : Mtx R) (j : ℕ) (h : m.WF) (hc : m.cols = 3) :
    (calRow junk m j).sat fun v => v.sz = 3 ∧ v.data.length = 3 := by
  unfold calRow
  refine (mtx_get_row_safe m j _ h (by simp; omega)).bind fun ⟨_, d⟩ l => satp ?_
  exact ⟨rfl, by simpa using l⟩

theorem calTilt_sat (junk : ℕ → R) (q : Quat R) (av : Vec R) (x y : R) (h : av.WF) : (calTilt junk q av x y).sat fun _ => True := by
  unfold calTilt
  dsimp only
  exact (att_from_accel_safe junk av h _).bind fun _ _ => satp trivial

/-- C149. `zsl_fus_cal_madg` and `zsl_fus_cal_mahn`, for every recording; the sampling frequency must fit the type it is converted to, unless the
call is rejected. -/
theorem cal_gain_safe (junk : ℕ → R) (old : ℕ) (g a m : Mtx R) (f : R) (incl : Option R) (k : R) (hg : g.WF) (ha : a.WF) (hm : m.WF)
    (hf : CReal.lt f (lit 0) = false → ∃ z, CReal.trunc f = some z ∧ 0 ≤ z ∧ z < 4294967296) :
    ((calMadg junk old g a m f incl k).sat fun _ => True) ∧ (calMahn junk old g a m f incl k).sat fun _ => True := by
  constructor
  · unfold calMadg
    refine ite_sat (fun _ => by simp) fun hs => ?_
    push Not at hs
    obtain ⟨z, hz, hz'⟩ := hf (by simpa using hs.2.2.2.1)
    unfold realToU32
    rw [hz]
    dsimp only
    rw [if_pos hz', ok_bind]
    refine Out.sat.bind (P := fun _ => True) (forN_inv _ trivial fun i hi t _ => ?_) fun _ _ => satp trivial
    refine Out.sat.bind (P := fun _ => True) ?_ fun _ _ => satp trivial
    unfold calMadgError
    refine Out.sat.bind (P := fun _ => True) (forN_inv _ trivial fun j hj t _ => ?_) fun _ _ => satp trivial
    refine (calRow_safe junk g j hg hs.1).bind fun gv h1 => (calRow_safe junk a j ha hs.2.1).bind fun av h2 =>
      (calRow_safe junk m j hm hs.2.2.1).bind fun mv h3 => ?_
    refine (madg_feed_safe junk _ incl _ ⟨some av, some mv, gv⟩ _ ?_).bind fun ⟨_, sens, q⟩ l => ?_
    · refine ⟨?_, ?_, ?_⟩ <;> simp [Vec.WF, h1, h2, h3]
    · obtain ⟨sa, sm, sg⟩ := sens
      cases sa with
      | none => exact absurd l.1 (by simp [optLike])
      | some w =>
        have lw : av.Like w := by simpa [optLike] using l.1
        show (Out.sat _ _)
        unfold sensVec
        dsimp only
        rw [ok_bind]
        exact (calTilt_sat junk q w _ _ (lw.wf (by simp [Vec.WF, h2]))).bind fun _ _ => satp trivial
  · unfold calMahn
    refine ite_sat (fun _ => by simp) fun hs => ?_
    push Not at hs
    obtain ⟨z, hz, hz'⟩ := hf (by simpa using hs.2.2.2.1)
    unfold realToU32
    rw [hz]
    dsimp only
    rw [if_pos hz', ok_bind]
    refine Out.sat.bind (P := fun s : R × Vec R => s.2.WF) (forN_inv _ (by simp [Vec.WF]) fun i hi t ht => ?_) fun _ _ => satp trivial
    refine Out.sat.bind (P := fun s : R × Vec R => s.2.WF) ?_ fun ⟨_, _⟩ h => satp h
    unfold calMahnError
    refine Out.sat.bind (P := fun s : Quat R × Vec R × R × R => s.2.1.WF) (forN_inv _ ht fun j hj t ht => ?_) fun _ h => satp h
    refine (calRow_safe junk g j hg hs.1).bind fun gv h1 => (calRow_safe junk a j ha hs.2.1).bind fun av h2 =>
      (calRow_safe junk m j hm hs.2.2.1).bind fun mv h3 => ?_
    refine (mahn_feed_safe junk _ incl ⟨some av, some mv, gv⟩ _ _ ?_ ht).bind fun ⟨_, sens, c, q⟩ l => ?_
    · refine ⟨?_, ?_, ?_⟩ <;> simp [Vec.WF, h1, h2, h3]
    · obtain ⟨sa, sm, sg⟩ := sens
      cases sa with
      | none => exact absurd l.1.1 (by simp [optLike])
      | some w =>
        have lw : av.Like w := by simpa [optLike] using l.1.1
        show (Out.sat _ _)
        unfold sensVec
        dsimp only
        rw [ok_bind]
        exact (calTilt_sat junk q w _ _ (lw.wf (by simp [Vec.WF, h2]))).bind fun ⟨_, _⟩ _ => satp (l.2.wf ht)

/-- C149. `zsl_fus_cal_magn_fast`, for every recording with at least one row. -/
theorem cal_magn_fast_safe (junk : ℕ → R) (m : Mtx R) (me : Option R) (K : Mtx R) (b : Vec R) (hm : m.WF) (hK : K.WF) (hb : b.WF)
    (h0 : 0 < m.rows) : (calMagnFast junk m me K b).sat fun p => K.Like p.2.1 ∧ b.Like p.2.2 := by
  unfold calMagnFast
  dsimp only
  refine ite_sat (fun _ => by simp [Mtx.Like, Vec.Like]) fun hs => ?_
  push Not at hs
  refine (sta_quad_fit_safe junk m _ hm (Vec.wf_uninit junk 9) h0).bind fun ⟨_, co⟩ l => ?_
  have hl : co.data.length = 9 := by simpa using l.2
  dsimp only
  refine Out.sat.bind (P := fun A : Mtx R => A.Is 3 3) ?_ fun A hA => ?_
  · unfold calQuadric
    rw [rd_lt (by omega), ok_bind, rd_lt (by omega), ok_bind, rd_lt (by omega), ok_bind, rd_lt (by omega), ok_bind, rd_lt (by omega), ok_bind,
      rd_lt (by omega), ok_bind]
    exact satp ⟨rfl, rfl, by simp [Mtx.WF]⟩
  rw [rd_lt (by omega), ok_bind, rd_lt (by omega), ok_bind, rd_lt (by omega), ok_bind]
  refine (mtx_cholesky_safe _ A _ hA.2.2 (Mtx.wf_uninit junk 3 3)).bind fun ⟨_, L⟩ lL => ?_
  have hL := lL.is (is_uninit junk 3 3)
  refine (trans_is junk 3 3 L hL.2.2 (by rw [hL.2.1]; omega)).bind fun ⟨_, G⟩ hG => ?_
  refine (mtx_scalar_mult_safe G _ hG.2.2).bind fun ⟨_, G'⟩ lG => ?_
  refine (mtx_copy_safe K G' hK (lG.wf hG.2.2)).bind fun ⟨_, K'⟩ lK => ?_
  refine (mtx_inv_safe junk A _ hA.2.2 (Mtx.wf_uninit junk 3 3) (by rw [hA.1]; omega)).bind fun ⟨_, Ai⟩ lA => ?_
  refine (mult_is junk 3 1 Ai _ (lA.wf (Mtx.wf_uninit junk 3 3)) (by simp [Mtx.WF])).bind fun ⟨_, X⟩ hX => ?_
  have h3 := hX.len
  have hb3 : 3 ≤ b.data.length := by
    unfold Vec.WF at hb
    omega
  dsimp only at h3 ⊢
  rw [rd_lt (by omega), ok_bind, rd_lt (by omega), ok_bind, rd_lt (by omega), ok_bind, wr_lt _ (by omega), ok_bind, wr_lt _ (by simp; omega), ok_bind,
    wr_lt _ (by simp; omega), ok_bind]
  exact satp ⟨lK, rfl, by simp⟩

/-- One step of the fits: with a work matrix of the right shape the new one and the step have the right shape. -/
theorem calTau_safe (junk : ℕ → R) (n : ℕ) (l : R) (J : List R) (idx : Mtx R) (r : R) (h0 : 0 < n) (hJ : J.length = n) (hi : idx.Is n n) :
    (calTau junk n l ⟨1, n, J⟩ idx r).sat fun p => p.1.Is n n ∧ p.2.Is n 1 := by
  have hJw : (⟨1, n, J⟩ : Mtx R).WF := by simp [Mtx.WF, hJ]
  unfold calTau
  refine (trans_is junk n 1 ⟨1, n, J⟩ hJw h0).bind fun ⟨_, Jt⟩ h1 => ?_
  refine (mult_is junk n n Jt _ h1.2.2 hJw).bind fun ⟨_, JJ⟩ h2 => ?_
  refine Out.sat.bind (P := fun i : Mtx R => i.Is n n) ?_ fun idx h3 => ?_
  · unfold calDamp
    have e1 := h2.len
    have e2 := hi.len
    refine Out.sat.bind (P := fun d : List R => d.length = idx.data.length) (forN_inv _ rfl fun k hk d hd => ?_) fun d hd => satp ?_
    · have hk' : k * (n + 1) < n * n := by nlinarith [Nat.succ_le_of_lt hk]
      dsimp only at e1 ⊢
      rw [rd_lt (by omega), ok_bind, wr_lt _ (by omega)]
      exact (sat_ok _ _).2 (by simpa using hd)
    · refine ⟨hi.1, hi.2.1, ?_⟩
      have := hi.2.2
      unfold Mtx.WF at *
      dsimp only
      omega
  refine (mtx_add_sub_safe JJ idx JJ h2.2.2 h3.2.2 h2.2.2).2.2.1.bind fun ⟨_, JJ'⟩ l4 => ?_
  have h4 := l4.is h2
  refine (mtx_inv_safe junk JJ' idx h4.2.2 h3.2.2 (by rw [h4.1]; exact h0)).bind fun ⟨_, idx'⟩ l5 => ?_
  have h5 := l5.is h3
  refine (mult_is junk n 1 idx' Jt h5.2.2 h1.2.2).bind fun ⟨_, t⟩ h6 => ?_
  exact (mtx_scalar_mult_safe t _ h6.2.2).bind fun ⟨_, t'⟩ l7 => satp ⟨h5, l7.is h6⟩

theorem calFShp_safe (junk : ℕ → R) (H b : Vec R) (hH : H.WF) (hb : b.WF) : (calFShp junk H b).sat fun _ => True := by
  unfold calFShp
  exact (vec_add_safe H b _ hH hb (Vec.wf_uninit junk 3)).bind fun ⟨_, Hb⟩ l => (vec_norm_safe Hb (l.wf (Vec.wf_uninit junk 3))).2

theorem calSym_safe (g : List R) (h : g.length = 9) : (calSym g).sat fun K => K.length = 9 := by
  unfold calSym
  rw [rd_lt (by omega), ok_bind, rd_lt (by omega), ok_bind, rd_lt (by omega), ok_bind, rd_lt (by omega), ok_bind, rd_lt (by omega), ok_bind,
    rd_lt (by omega), ok_bind]
  exact satp rfl

theorem calFElli_safe (junk : ℕ → R) (H : Vec R) (g : List R) (hH : H.data.length = 3) (hg : g.length = 9) :
    (calFElli junk H g).sat fun _ => True := by
  unfold calFElli
  refine (calSym_safe g hg).bind fun K hK => ?_
  rw [rd_lt (by omega), ok_bind, rd_lt (by omega), ok_bind, rd_lt (by omega), ok_bind, rd_lt (by omega), ok_bind, rd_lt (by omega), ok_bind,
    rd_lt (by omega), ok_bind]
  refine (mult_is junk 3 1 ⟨3, 3, K⟩ _ (by simp [Mtx.WF, hK]) (by simp [Mtx.WF])).bind fun ⟨_, X⟩ hX => ?_
  have h3 := hX.len
  dsimp only at h3
  refine (vec_from_arr_safe _ X.data (Vec.wf_uninit junk 3) (by simpa using h3)).bind fun ⟨_, Hd⟩ l => ?_
  exact (vec_norm_safe Hd (l.wf (Vec.wf_uninit junk 3))).2

theorem calJacShp_safe (junk : ℕ → R) (m : Mtx R) (b : Vec R) (hm : m.WF) (hc : m.cols = 3) (hb : b.sz = 3) (hb3 : 3 ≤ b.data.length) :
    (calJacShp junk m b).sat fun J => J.length = 4 := by
  unfold calJacShp
  refine forN_inv (fun J : List R => J.length = 4) rfl fun i hi J hJ => ?_
  refine (calRow_safe junk m i hm hc).bind fun H hH => ?_
  refine (calFShp_safe junk H b (by simp [Vec.WF, hH]) (by simp [Vec.WF, hb]; omega)).bind fun f _ => ?_
  rw [rd_lt (by omega), ok_bind, rd_lt (by omega), ok_bind, rd_lt (by omega), ok_bind, rd_lt (by omega), ok_bind, rd_lt (by omega), ok_bind,
    rd_lt (by omega), ok_bind, rd_lt (by omega), ok_bind, rd_lt (by omega), ok_bind, rd_lt (by omega), ok_bind, rd_lt (by omega), ok_bind]
  exact satp rfl

theorem calSphere_safe (junk : ℕ → R) (m : Mtx R) (mu : R) (j : ℕ) (s : CalFit R) (hm : m.WF) (hc : m.cols = 3) (n : ℕ) (h3 : 3 ≤ n)
    (hb : s.b.length = n) (hi : s.idx.Is 4 4) : (calSphere junk m mu j s).sat fun s' => s'.b.length = n ∧ s'.idx.Is 4 4 := by
  unfold calSphere
  refine (calJacShp_safe junk m ⟨3, s.b⟩ hm hc rfl (by dsimp only; omega)).bind fun J hJ => ?_
  refine (calRow_safe junk m j hm hc).bind fun H hH => ?_
  refine (calFShp_safe junk H _ (by simp [Vec.WF, hH]) (by simp [Vec.WF]; omega)).bind fun f _ => ?_
  refine (calTau_safe junk 4 s.l J s.idx _ (by omega) hJ hi).bind fun ⟨idx, t⟩ ⟨h1, h2⟩ => ?_
  have e := h2.len
  dsimp only at h1 e ⊢
  rw [rd_lt (by omega), ok_bind, rd_lt (by omega), ok_bind, rd_lt (by omega), ok_bind, rd_lt (by omega), ok_bind, rd_lt (by omega), ok_bind,
    rd_lt (by omega), ok_bind, rd_lt (by omega), ok_bind]
  rw [wr_lt _ (by omega), ok_bind, wr_lt _ (by simp; omega), ok_bind, wr_lt _ (by simp; omega), ok_bind]
  refine ite_sat (fun _ => ?_) fun _ => satp ⟨by simpa using hb, h1⟩
  refine (calRow_safe junk m (j + 1) hm hc).bind fun H hH => ?_
  refine (calFShp_safe junk H _ (by simp [Vec.WF, hH]) (by simp [Vec.WF]; omega)).bind fun f _ => ?_
  exact satp ⟨by simpa using hb, h1⟩

theorem calJacElli_safe (junk : ℕ → R) (m : Mtx R) (g b : List R) (hm : m.WF) (hc : m.cols = 3) (hg : g.length = 9) (hb : 3 ≤ b.length) :
    (calJacElli junk m g b).sat fun J => J.length = 9 := by
  unfold calJacElli
  refine forN_inv (fun J : List R => J.length = 9) (by simp) fun i hi N hN => ?_
  refine (calRow_safe junk m i hm hc).bind fun H hH => ?_
  refine (calFElli_safe junk H g hH.2 hg).bind fun f _ => ?_
  rw [rd_lt (by omega), ok_bind, rd_lt (by omega), ok_bind, rd_lt (by omega), ok_bind, rd_lt (by omega), ok_bind, rd_lt (by omega), ok_bind,
    rd_lt (by omega), ok_bind, rd_lt (by omega), ok_bind, rd_lt (by omega), ok_bind, rd_lt (by omega), ok_bind, rd_lt (by omega), ok_bind,
    rd_lt (by omega), ok_bind, rd_lt (by omega), ok_bind]
  dsimp only
  rw [rd_lt (by omega), ok_bind, rd_lt (by omega), ok_bind, rd_lt (by omega), ok_bind, rd_lt (by omega), ok_bind, rd_lt (by omega), ok_bind,
    rd_lt (by omega), ok_bind, rd_lt (by omega), ok_bind, rd_lt (by omega), ok_bind, rd_lt (by omega), ok_bind]
  exact satp rfl

theorem calEllipsoid_safe (junk : ℕ → R) (m : Mtx R) (mu : R) (b : List R) (j : ℕ) (s : CalFit R) (hm : m.WF) (hc : m.cols = 3)
    (hb : 3 ≤ b.length) (hg : s.b.length = 9) (hi : s.idx.Is 9 9) :
    (calEllipsoid junk m mu b j s).sat fun s' => s'.b.length = 9 ∧ s'.idx.Is 9 9 := by
  unfold calEllipsoid
  refine (calJacElli_safe junk m s.b b hm hc hg hb).bind fun J hJ => ?_
  refine (calRow_safe junk m j hm hc).bind fun H hH => ?_
  refine (calFElli_safe junk H _ hH.2 hg).bind fun f _ => ?_
  refine (calTau_safe junk 9 s.l J s.idx _ (by omega) hJ hi).bind fun ⟨idx, t⟩ ⟨h1, h2⟩ => ?_
  have e := h2.len
  dsimp only at h1 e ⊢
  refine Out.sat.bind (P := fun d : List R => d.length = 9) (forN_inv _ hg fun k hk d hd => ?_) fun d hd => ?_
  · rw [rd_lt (by omega), ok_bind, rd_lt (by omega), ok_bind, wr_lt _ (by omega)]
    exact (sat_ok _ _).2 (by simpa using hd)
  refine ite_sat (fun _ => ?_) fun _ => satp ⟨hd, h1⟩
  refine (calRow_safe junk m (j + 1) hm hc).bind fun H hH => ?_
  refine (calFElli_safe junk H _ hH.2 hd).bind fun f _ => ?_
  exact satp ⟨hd, h1⟩

/-- C149. `zsl_fus_cal_magn`, for every recording with at least one row for which sorting each of the three columns stays within its buffers (C12):
whatever the two fits compute, singular or NaN, they do not leave theirs. -/
theorem cal_magn_safe (fuel : ℕ) (extra : List R) (junk : ℕ → R) (m : Mtx R) (l mu : R) (K : Mtx R) (b : Vec R) (hm : m.WF) (hK : K.WF)
    (hb : b.WF) (h0 : 0 < m.rows)
    (hs : ∀ i < 3, ∀ v w : List R, ∀ c, v.length = m.rows → w.length = m.rows → mtxGetCol m i v = ok c →
      (vecSort fuel extra ⟨m.rows, c.2⟩ ⟨m.rows, w⟩).sat fun p => p.2.data.length = m.rows) :
    (calMagn fuel extra junk m l mu K b).sat fun p => K.Like p.2.2.1 ∧ b.Like p.2.2.2 := by
  unfold calMagn
  refine ite_sat (fun _ => by simp [Mtx.Like, Vec.Like]) fun hg => ?_
  push Not at hg
  rw [if_neg (by omega)]
  have hb3 : 3 ≤ b.data.length := by
    unfold Vec.WF at hb
    omega
  have hK9 : 9 ≤ K.data.length := by
    unfold Mtx.WF at hK
    rw [hg.2.1, hg.2.2.1] at hK
    omega
  refine Out.sat.bind (P := fun s : List R × R => s.1.length = b.data.length) ?_ ?_
  · unfold calCentre
    refine Out.sat.bind (P := fun s : List R × R × List R × List R => s.1.length = b.data.length ∧ s.2.2.1.length = m.rows ∧ s.2.2.2.length = m.rows)
      (forN_inv _ ⟨rfl, by simp, by simp⟩ fun i hi s ⟨e1, e2, e3⟩ => ?_) fun s h => satp h.1
    have hc := mtx_get_col_safe m i s.2.2.1 hm (by omega)
    cases hcol : mtxGetCol m i s.2.2.1 with
    | ub => rw [hcol] at hc; exact absurd hc (by simp)
    | ok c =>
      rw [hcol] at hc
      have hl : c.2.length = m.rows := by simpa [e2] using hc
      rw [ok_bind]
      refine (hs i hi _ s.2.2.2 c e2 e3 hcol).bind fun ⟨_, w⟩ hw => ?_
      dsimp only at hw ⊢
      rw [szSub_le (by omega), rd_lt (by omega), ok_bind, rd_lt (by omega), ok_bind, wr_lt _ (by omega), ok_bind]
      exact satp ⟨by simpa using e1, hl, hw⟩
  rintro ⟨d, mean⟩ hd
  dsimp only at hd ⊢
  refine (mtx_init_safe _ (Mtx.wf_uninit junk 4 4)).2.2.1.bind fun ⟨_, idx⟩ li => ?_
  refine Out.sat.bind (P := fun s : CalFit R => s.b.length = b.data.length ∧ s.idx.Is 4 4)
    (forN_inv _ ⟨hd, li.is (is_uninit junk 4 4)⟩ fun j hj s h => calSphere_safe junk m mu j s hm hg.1 _ hb3 h.1 h.2) fun s hs => ?_
  refine (mtx_init_safe K hK).2.2.1.bind fun ⟨_, K'⟩ lK => ?_
  dsimp only at lK ⊢
  rw [rd_lt (by omega), ok_bind, rd_lt (by omega), ok_bind, rd_lt (by omega), ok_bind]
  refine (mtx_init_safe _ (Mtx.wf_uninit junk 9 9)).2.2.1.bind fun ⟨_, idxN⟩ lN => ?_
  refine Out.sat.bind (P := fun s : CalFit R => s.b.length = 9 ∧ s.idx.Is 9 9)
    (forN_inv _ ⟨rfl, lN.is (is_uninit junk 9 9)⟩ fun j hj e h => calEllipsoid_safe junk m mu s.b j e hm hg.1 (by omega) h.1 h.2) fun e he => ?_
  refine (calSym_safe e.b he.1).bind fun k hk => ?_
  refine Out.sat.bind (P := fun d : List R => d.length = K'.data.length) (forN_inv _ rfl fun i hi d hd => ?_) fun kd hkd => ?_
  · have := lK.2.2
    rw [rd_lt (by omega), ok_bind, wr_lt _ (by omega)]
    exact (sat_ok _ _).2 (by simpa using hd)
  have he9 := he.1
  have hs1 := hs.1
  rw [rd_lt (by omega), ok_bind, rd_lt (by omega), ok_bind, rd_lt (by omega), ok_bind, wr_lt _ (by omega), ok_bind, wr_lt _ (by simp; omega), ok_bind,
    wr_lt _ (by simp; omega), ok_bind]
  exact satp ⟨⟨lK.1, lK.2.1, hkd.trans lK.2.2⟩, rfl, by simpa using hs1⟩

/-! ### The hypotheses are met -/

/-- Real numbers with infinities and NaN meet the law of comparisons. -/
theorem cmpLaw_xr : CmpLaw XR := by
  have key : ∀ a b : XR, XR.le a b = true → XR.lt a b = false → XR.beq a b = true ∧ XR.beq b a = true := by
    intro a b h1 h2
    cases a <;> cases b <;> simp_all [XR.le, XR.lt, XR.beq]
    rename_i x y
    rcases h1 with h1 | h1
    · exact absurd h1 (not_lt.2 h2)
    · exact ⟨h1, h1.symm⟩
  exact fun a b => ⟨fun h1 h2 => (key b a h1 h2).2, fun h1 h2 => (key a b h1 h2).1⟩

/-- A table that is not in order and has a NaN in it. -/
noncomputable example : ∃ r : Int × XR,
    interpLinYArr [⟨.fin 3, .fin 1⟩, ⟨.nan, .fin 2⟩, ⟨.fin 1, .pinf⟩, ⟨.fin 2, .nan⟩] 4 (XR.fin 2) = ok r := by
  obtain ⟨r, hr, -⟩ := (interp_arr_safe cmpLaw_xr [⟨.fin 3, .fin 1⟩, ⟨.nan, .fin 2⟩, ⟨.fin 1, .pinf⟩, ⟨.fin 2, .nan⟩] 4 (XR.fin 2) (.fin 0)
    (by simp) (by norm_num)).2
  exact ⟨r, hr⟩

/-- A magnetometer recording of NaNs, for which the fit is singular. -/
noncomputable example (junk : ℕ → XR) : ∃ r, calMagnFast junk ⟨1, 3, [.nan, .nan, .pinf]⟩ none ⟨3, 3, List.replicate 9 (XR.fin 0)⟩
    ⟨3, [.fin 0, .fin 0, .fin 0]⟩ = ok r := by
  obtain ⟨r, hr, -⟩ := cal_magn_fast_safe junk ⟨1, 3, [.nan, .nan, .pinf]⟩ none ⟨3, 3, List.replicate 9 (XR.fin 0)⟩
    ⟨3, [.fin 0, .fin 0, .fin 0]⟩ (by simp [Mtx.WF]) (by simp [Mtx.WF]) (by simp [Vec.WF]) (by simp)
  exact ⟨r, hr⟩

/-- A sampling frequency of 100 Hz. -/
noncomputable example (junk : ℕ → XR) : ∃ r, calMadg junk 0 ⟨1, 3, [.nan, .nan, .pinf]⟩ ⟨1, 3, [.nan, .nan, .pinf]⟩ ⟨1, 3, [.nan, .nan, .pinf]⟩
    (.fin 100) none (.fin 0) = ok r := by
  obtain ⟨r, hr, -⟩ := (cal_gain_safe junk 0 ⟨1, 3, [.nan, .nan, .pinf]⟩ ⟨1, 3, [.nan, .nan, .pinf]⟩ ⟨1, 3, [.nan, .nan, .pinf]⟩
    (XR.fin 100) none (.fin 0) (by simp [Mtx.WF]) (by simp [Mtx.WF]) (by simp [Mtx.WF])
    fun _ => ⟨100, by simp [CReal.trunc, XR.trunc], by norm_num, by norm_num⟩).1
  exact ⟨r, hr⟩

end Verif
