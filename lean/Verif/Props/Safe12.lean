import Verif.Props.Safe11
import Verif.Model.Physics
import Verif.Model.Colorimetry

/-!
# Memory safety of the physics and colorimetry functions with buffers, for every content (C149)

`zsl_clr_conv_xyz_rgb8` and `zsl_clr_conv_ct_rgb8` are not here: their conversion to 8 bits is undefined for NaN, see C69.
-/

namespace Verif

open Out

set_option linter.unusedSectionVars false

variable {R : Type} [CReal R]

theorem scan_safe (v : Vec R) (h : v.WF) (b : R → Bool) (r : Int × R) :
    (forRet v.sz (fun j (_ : Unit) => do
      let a ← rd v.data j
      if b a then return Ctl.ret r else return Ctl.next ()) ()).sat fun _ => True := by
  unfold Vec.WF at h
  refine (forRet_inv (fun _ => True) (fun _ => True) trivial fun i hi t _ => ?_).mono (by simp)
  rw [rd_lt (by omega), ok_bind]
  exact ite_sat (fun _ => satp trivial) fun _ => satp trivial

theorem fold_safe (v : Vec R) (h : v.WF) (g : R → R → R) (s : R) :
    (forN v.sz (fun j r => do
      let a ← rd v.data j
      return g r a) s).sat fun _ => True := by
  unfold Vec.WF at h
  refine forN_inv _ trivial fun i hi t _ => ?_
  rw [rd_lt (by omega), ok_bind]
  exact satp trivial

/-- C149. Resistors and capacitors in series and in parallel, for every number of components and every content. -/
theorem phy_networks_safe (v : Vec R) (h : v.WF) :
    ((phyElctyResSeries v).sat fun _ => True) ∧ ((phyElctyResParallel v).sat fun _ => True) ∧
      ((phyElctyCapSeries v).sat fun _ => True) ∧ (phyElctyCapParallel v).sat fun _ => True := by
  refine ⟨?_, ?_, ?_, ?_⟩
  · refine (scan_safe v h (fun a => CReal.lt a (lit 0)) _).bind ?_
    rintro (_ | _) _
    · exact (fold_safe v h (fun r a => r + a) _).bind fun _ _ => satp trivial
    · exact satp trivial
  · refine (scan_safe v h (fun a => CReal.le a (lit 0)) _).bind ?_
    rintro (_ | _) _
    · exact (fold_safe v h (fun r a => r + lit 1 / a) _).bind fun _ _ => satp trivial
    · exact satp trivial
  · refine (scan_safe v h (fun a => CReal.le a (lit 0)) _).bind ?_
    rintro (_ | _) _
    · exact (fold_safe v h (fun r a => r + lit 1 / a) _).bind fun _ _ => satp trivial
    · exact satp trivial
  · refine (scan_safe v h (fun a => CReal.lt a (lit 0)) _).bind ?_
    rintro (_ | _) _
    · exact (fold_safe v h (fun r a => r + a) _).bind fun _ _ => satp trivial
    · exact satp trivial

/-- C149. `zsl_phy_mass_center`, for all sizes. -/
theorem phy_mass_center_safe (m x y z : Vec R) (a b c : R) (hm : m.WF) (hx : x.WF) (hy : y.WF) (hz : z.WF) :
    (phyMassCenter m x y z a b c).sat fun _ => True := by
  unfold phyMassCenter
  refine ite_sat (fun _ => by simp) fun _ => ?_
  refine (vec_dot_safe m x _ hm hx).bind fun ⟨r1, _⟩ _ => ite_sat (fun _ => satp trivial) fun _ => ?_
  refine (vec_dot_safe m y _ hm hy).bind fun ⟨r2, _⟩ _ => ite_sat (fun _ => satp trivial) fun _ => ?_
  refine (vec_dot_safe m z _ hm hz).bind fun ⟨r3, _⟩ _ => ite_sat (fun _ => satp trivial) fun _ => ?_
  refine (vec_ar_mean_safe m _ hm).bind fun ⟨r4, _⟩ _ => ite_sat (fun _ => satp trivial) fun _ => ?_
  refine (vec_tests_safe m m (lit 0) (lit 0) hm hm).2.1.bind fun _ _ => ite_sat (fun _ => satp trivial) fun _ => ?_
  exact ite_sat (fun _ => satp trivial) fun _ => satp trivial

theorem obsGet_length (o : Obs) : (clrObsGet o).length = 95 := by
  cases o <;> rfl

/-- C149. `zsl_clr_conv_spd_xyz`, for every distribution, whatever wavelengths it lists. -/
theorem clr_spd_xyz_safe (spd : Spd R) (o : Obs) (h : spd.size ≤ spd.comps.length) : (clrSpdXyz spd o).sat fun _ => True := by
  unfold clrSpdXyz
  dsimp only
  refine ite_sat (fun _ => by simp) fun _ => ?_
  refine Out.sat.bind (P := fun _ => True) (forN_inv _ trivial fun i hi s _ => ?_) fun ⟨z, k⟩ _ => ?_
  · obtain ⟨z, k⟩ := s
    dsimp only
    rw [rd_lt (by omega), ok_bind]
    refine ite_sat (fun hc => ?_) fun _ => satp trivial
    rw [rd_lt (by rw [obsGet_length]; omega), ok_bind]
    exact satp trivial
  · exact ite_sat (fun _ => satp trivial) fun _ => satp trivial

/-- C149. `zsl_clr_conv_ct_xyz`, for every temperature. -/
theorem clr_ct_xyz_safe (ct : R) (o : Obs) : (clrCtXyz ct o).sat fun p => p.1 = 0 := by
  unfold clrCtXyz
  dsimp only
  refine Out.sat.bind (P := fun _ => True) (forN_inv _ trivial fun i hi s _ => ?_) fun _ _ => satp rfl
  rw [rd_lt (by rw [obsGet_length]; omega), ok_bind]
  exact satp trivial

/-- C149. `zsl_clr_norm_spd`: the distribution keeps its size. -/
theorem clr_norm_spd_safe (spd : Spd R) (h : spd.size ≤ spd.comps.length) :
    (clrNormSpd spd).sat fun p => p.2.size = spd.size ∧ p.2.comps.length = spd.comps.length := by
  unfold clrNormSpd
  refine Out.sat.bind (P := fun _ => True) (forN_inv _ trivial fun i hi s _ => ?_) fun mx _ => ?_
  · rw [rd_lt (by omega), ok_bind]
    exact ite_sat (fun _ => satp trivial) fun _ => satp trivial
  refine ite_sat (fun _ => satp ⟨rfl, rfl⟩) fun _ => ?_
  refine Out.sat.bind (P := fun d : List (ℕ × R) => d.length = spd.comps.length) (forN_inv _ rfl fun i hi d hd => ?_) fun d hd => satp ⟨rfl, hd⟩
  rw [rd_lt (by omega), ok_bind, wr_lt _ (by omega)]
  exact (sat_ok _ _).2 (by simpa using hd)

/-- C149. `zsl_clr_conv_xyz_rgbf`, for every matrix, of the right shape or not, and every colour. -/
theorem clr_xyz_rgbf_safe (cap : Bool) (junk : ℕ → R) (c : Xyz R) (m : Mtx R) (h : m.WF) : (clrXyzRgbf cap junk c m).sat fun _ => True := by
  unfold clrXyzRgbf
  refine (mtx_init_safe _ (Mtx.wf_uninit junk 3 1)).1.bind fun ⟨_, xm⟩ l1 => ?_
  refine (mtx_init_safe _ (Mtx.wf_uninit junk 3 1)).1.bind fun ⟨_, rm⟩ l2 => ?_
  have e1 : xm.data.length = 3 := by simpa using l1.2.2
  have w1 := l1.is (is_uninit junk 3 1)
  have w2 := l2.is (is_uninit junk 3 1)
  dsimp only at w1 w2 ⊢
  rw [wr_lt _ (by omega), ok_bind, wr_lt _ (by simp; omega), ok_bind, wr_lt _ (by simp; omega), ok_bind]
  refine (mtx_mult_safe m _ rm h ?_ w2.2.2).bind fun ⟨rc, r⟩ l3 => ?_
  · have := w1.2.2
    simp only [Mtx.WF, List.length_set] at this ⊢
    exact this
  have e3 := (l3.is w2).len
  dsimp only at e3 ⊢
  refine ite_sat (fun _ => satp trivial) fun _ => ?_
  rw [rd_lt (by omega), ok_bind, rd_lt (by omega), ok_bind, rd_lt (by omega), ok_bind]
  exact satp trivial

/-- C149. `zsl_clr_conv_ct_rgbf`. -/
theorem clr_ct_rgbf_safe (cap : Bool) (junk : ℕ → R) (ct : R) (o : Obs) (m : Mtx R) (f : Rgbf R) (h : m.WF) :
    (clrCtRgbf cap junk ct o m f).sat fun _ => True := by
  unfold clrCtRgbf
  exact (clr_ct_xyz_safe ct o).bind fun ⟨rc, z⟩ _ => ite_sat (fun _ => satp trivial) fun _ => clr_xyz_rgbf_safe cap junk z m h

/-- A distribution with wavelengths outside the table of the observer and a NaN; a colour of NaNs with a matrix of the wrong shape. -/
noncomputable example (junk : ℕ → XR) : (∃ r, clrSpdXyz (⟨3, [(0, .nan), (832, .pinf), (829, .fin 1)]⟩ : Spd XR) .deg2 = ok r) ∧
    ∃ r, clrXyzRgbf true junk (⟨.nan, .nan, .nan, .deg2, .A, false, false, false⟩ : Xyz XR) ⟨2, 1, [.nan, .fin 1]⟩ = ok r := by
  obtain ⟨r, hr, -⟩ := clr_spd_xyz_safe (⟨3, [(0, .nan), (832, .pinf), (829, .fin 1)]⟩ : Spd XR) .deg2 (by simp)
  obtain ⟨q, hq, -⟩ := clr_xyz_rgbf_safe true junk (⟨.nan, .nan, .nan, .deg2, .A, false, false, false⟩ : Xyz XR) ⟨2, 1, [.nan, .fin 1]⟩
    (by simp [Mtx.WF])
  exact ⟨⟨r, hr⟩, q, hq⟩

end Verif
