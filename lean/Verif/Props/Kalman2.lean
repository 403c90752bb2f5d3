import Verif.Props.Kalman1
import Verif.Props.Quat2
import Verif.Props.Fusion5

/-!
# The extended Kalman filter: refused calls, the first call, histories (C111, C112)
-/

namespace Verif

open Quaternion Matrix Out

/-! ## Refused calls -/

section
variable {R : Type} [CReal R]

/-- A sensor the filter cannot use: NULL, or a vector which has not three elements. -/
def unusable (v : Option (Vec R)) : Prop := ∀ x, v = some x → x.sz ≠ 3

theorem fusKalman_rejects (junk : ℕ → R) (f : ℕ) (incl : Option R) (c : KalmCfg R) (s : Sens3 R) (q : Quat R)
    (h : unusable s.a ∨ unusable s.m ∨ unusable s.g) : fusKalman junk f incl c s q = ok (-EINVAL, s, c.P, q) := by
  obtain ⟨a, m, g⟩ := s
  unfold fusKalman
  cases a <;> cases m <;> cases g <;> try rfl
  simp only
  rw [if_pos]
  rcases h with h | h | h
  · exact Or.inl (h _ rfl)
  · exact Or.inr (Or.inl (h _ rfl))
  · exact Or.inr (Or.inr (h _ rfl))

/-- C111: once the filter has started, a call without one of the three sensors, or with one of another size, is refused and nothing is
written. -/
theorem kalm_feed_rejects (junk : ℕ → R) (f : ℕ) (incl : Option R) (s : Sens3 R) (c : KalmCfg R) (q : Quat R)
    (h : unusable s.a ∨ unusable s.m ∨ unusable s.g) :
    fusKalmFeed junk f incl s c q true = ok (-EINVAL, s, c, q, true) := by
  unfold fusKalmFeed
  by_cases hv : (CReal.lt c.varG (lit 0) || CReal.lt c.varA (lit 0) || CReal.lt c.varM (lit 0)) = true
  · rw [if_pos hv]
  · rw [if_neg hv, if_pos rfl, fusKalman_rejects junk f incl c s q h, ok_bind]
    rfl

/-- C111: a negative variance is refused at any time and nothing is written. -/
theorem kalm_feed_negative (junk : ℕ → R) (f : ℕ) (incl : Option R) (s : Sens3 R) (c : KalmCfg R) (q : Quat R) (b : Bool)
    (h : CReal.lt c.varG (lit 0) = true ∨ CReal.lt c.varA (lit 0) = true ∨ CReal.lt c.varM (lit 0) = true) :
    fusKalmFeed junk f incl s c q b = ok (-EINVAL, s, c, q, b) := by
  unfold fusKalmFeed
  rw [if_pos]
  rcases h with h | h | h <;> simp [h]

end

/-- C111, negation: a refused first call, here one without magnetometer, is not without effect. It replaces the covariance by the identity
and marks the filter as started, so that no later call will derive the attitude from the sensors. -/
theorem kalm_first_rejected (junk : ℕ → XR) (f : ℕ) (incl : Option XR) (a g : Option (Vec XR)) (x : KalmIn) (hG : 0 ≤ x.varG)
    (hA : 0 ≤ x.varA) (hM : 0 ≤ x.varM) (P : Matrix (Fin 4) (Fin 4) ℝ) (t : List XR) (q : Quat XR) :
    fusKalmFeed junk f incl ⟨a, none, g⟩ (x.cfg P t) q false = ok (-EINVAL, ⟨a, none, g⟩, x.cfg 1 t, q, true) := by
  unfold fusKalmFeed
  rw [if_neg (by simp [KalmIn.cfg, hG, hA, hM]), if_neg (by simp)]
  have h1 : kalmQuatInit junk a none q = ok (-EINVAL, q, false) := by cases a <;> rfl
  have h2 : kalmPInit (mat P t) = ok (0, mat (1 : Matrix (Fin 4) (Fin 4) ℝ) t, true) := by
    unfold kalmPInit
    rw [if_neg (by simp), mtx_init_identity_real, ok_bind]
    rfl
  simp only
  rw [h1, ok_bind]
  simp only [KalmIn.cfg]
  rw [h2, ok_bind]
  simp only
  rw [fusKalman_rejects _ _ _ _ _ _ (Or.inr (Or.inl (by simp [unusable]))), ok_bind]
  rfl

/-! ## The first call -/

/-- The frame of a level observer: north, east and the direction of `a`, for the acceleration `a` and the field `m`. -/
noncomputable def startFrame (a m : V3) : Matrix (Fin 3) (Fin 3) ℝ :=
  Matrix.of fun i j => ![unitOf ((a ⨯₃ m) ⨯₃ a) i, unitOf (a ⨯₃ m) i, unitOf a i] j

theorem unitOf_ne {x : V3} (h : x ≠ 0) : unitOf x = (1 / Real.sqrt (x ⬝ᵥ x)) • x := by
  rw [unitOf, if_neg h]
  ext i
  simp [mul_comm]

theorem kalmQuatInit_vec (junk : ℕ → XR) (a m : V3) (q : Quat XR) :
    kalmQuatInit junk (some (vec a [])) (some (vec m [])) q =
      (do
        let (_, q) ← quatFromRotMtx (mat (startFrame a m) []) q
        return (0, quatToUnit q, true)) := by
  obtain ⟨U, hU⟩ := uninit_eq junk 3 3
  unfold kalmQuatInit
  simp only
  rw [if_neg (by simp), vecUninit_eq, vecCross_vec, ok_bind]
  simp only
  rw [vecCross_vec, ok_bind]
  simp only
  rw [← vecUninit_eq, vecCopy_vec3, ok_bind]
  simp only
  rw [vecToUnit_vec, ok_bind]
  simp only
  rw [vecToUnit_vec, ok_bind]
  simp only
  rw [vecToUnit_vec, ok_bind]
  simp only
  have s := fun (A : Matrix (Fin 3) (Fin 3) XR) (v : V3) (j : Fin 3) => mtx_set_col_correct A [] [] (fun i => XR.fin (v i)) j
  rw [hU]
  rw [show mtxSetCol (mtxOf U []) 0 (vec (unitOf ((a ⨯₃ m) ⨯₃ a)) []).data = _ from s U _ 0, ok_bind]
  simp only
  rw [show mtxSetCol _ 1 (vec (unitOf (a ⨯₃ m)) []).data = _ from s _ _ 1, ok_bind]
  simp only
  rw [show mtxSetCol _ 2 (vec (unitOf a) []).data = _ from s _ _ 2, ok_bind]
  simp only
  refine congrArg (fun M => quatFromRotMtx (mtxOf M []) q >>= fun x => pure ((0 : ℤ), quatToUnit x.2, true)) ?_
  ext i j
  fin_cases j <;> simp [startFrame]

theorem cross_self_dot (a b : V3) : a ⬝ᵥ (a ⨯₃ b) = 0 := dot_self_cross a b

/-- The frame is a rotation unless the acceleration and the field are parallel. -/
theorem startFrame_rotation {a m : V3} (h : a ⨯₃ m ≠ 0) : (startFrame a m)ᵀ * startFrame a m = 1 ∧ (startFrame a m).det = 1 := by
  have ha : a ≠ 0 := by rintro rfl; simp at h
  set w := a ⨯₃ m with hw
  have haw : a ⬝ᵥ w = 0 := dot_self_cross a m
  have hA : 0 < a ⬝ᵥ a := dotProduct_self_pos' ha
  have hW : 0 < w ⬝ᵥ w := dotProduct_self_pos' h
  set v := w ⨯₃ a with hv
  have hV : v ⬝ᵥ v = (w ⬝ᵥ w) * (a ⬝ᵥ a) := by
    rw [hv, cross_dot_cross, dotProduct_comm a w, dotProduct_comm w a, haw]
    ring
  have hv0 : v ≠ 0 := by
    intro h0
    rw [h0] at hV
    simp at hV
    rcases hV with h1 | h1
    · exact h h1
    · exact ha h1
  set r := Real.sqrt (a ⬝ᵥ a) with hr
  set s := Real.sqrt (w ⬝ᵥ w) with hs
  have hr0 : 0 < r := Real.sqrt_pos.2 hA
  have hs0 : 0 < s := Real.sqrt_pos.2 hW
  have hr2 : r * r = a ⬝ᵥ a := Real.mul_self_sqrt hA.le
  have hs2 : s * s = w ⬝ᵥ w := Real.mul_self_sqrt hW.le
  have hvs : Real.sqrt (v ⬝ᵥ v) = s * r := by rw [hV, Real.sqrt_mul hW.le]
  have e0 : unitOf v = (1 / (s * r)) • v := by rw [unitOf_ne hv0, hvs]
  have e1 : unitOf w = (1 / s) • w := by rw [unitOf_ne h]
  have e2 : unitOf a = (1 / r) • a := by rw [unitOf_ne ha]
  simp only [dotProduct, Fin.sum_univ_three] at haw hr2 hs2
  have c0 : v 0 = w 1 * a 2 - w 2 * a 1 := by rw [hv, cross_apply]; rfl
  have c1 : v 1 = w 2 * a 0 - w 0 * a 2 := by rw [hv, cross_apply]; rfl
  have c2 : v 2 = w 0 * a 1 - w 1 * a 0 := by rw [hv, cross_apply]; rfl
  have hfr : startFrame a m = Matrix.of fun i j => ![(1 / (s * r)) * v i, (1 / s) * w i, (1 / r) * a i] j := by
    unfold startFrame
    rw [← hw, ← hv, e0, e1, e2]
    rfl
  rw [hfr]
  have hr' := hr0.ne'
  have hs' := hs0.ne'
  have hVV : v 0 * v 0 + v 1 * v 1 + v 2 * v 2 = r * r * (s * s) := by
    rw [c0, c1, c2, hr2, hs2]
    linear_combination (-(a 0 * w 0 + a 1 * w 1 + a 2 * w 2)) * haw
  have hVW : v 0 * w 0 + v 1 * w 1 + v 2 * w 2 = 0 := by rw [c0, c1, c2]; ring
  have hVA : v 0 * a 0 + v 1 * a 1 + v 2 * a 2 = 0 := by rw [c0, c1, c2]; ring
  clear_value r s v w
  constructor
  · ext i j
    fin_cases i <;> fin_cases j <;>
    · simp [Matrix.mul_apply, Fin.sum_univ_three]
      field_simp
      first
        | linear_combination hVV | linear_combination -hr2 | linear_combination -hs2 | linear_combination hVW | linear_combination hVA
        | linear_combination haw
  · rw [Matrix.det_fin_three]
    simp
    field_simp
    rw [c0, c1, c2] at hVV ⊢
    linear_combination hVV

theorem kalmPInit_mat (P : Matrix (Fin 4) (Fin 4) ℝ) (t : List XR) :
    kalmPInit (mat P t) = ok (0, mat (1 : Matrix (Fin 4) (Fin 4) ℝ) t, true) := by
  unfold kalmPInit
  rw [if_neg (by simp), mtx_init_identity_real, ok_bind]
  rfl

/-- C112: the first call. Unless the acceleration and the field are parallel the attitude starts with the unit quaternion of the frame
(north, east, acceleration) and the covariance with the identity, whatever they were before; then the call is as any other. -/
theorem kalm_first_feed (junk : ℕ → XR) (x : KalmIn) (hf : 0 < x.freq) (hG : 0 ≤ x.varG) (hA : 0 ≤ x.varA) (hM : 0 ≤ x.varM)
    (hx : x.a ⨯₃ x.m ≠ 0) (P : Matrix (Fin 4) (Fin 4) ℝ) (t : List XR) (q : Quat XR) :
    ∃ q₀ : ℍ[ℝ], ‖q₀‖ = 1 ∧ quatFromRotMtx (mat (startFrame x.a x.m) []) q = ok (0, quat q₀) ∧
      fusKalmFeed junk x.freq (optFin x.incl) x.sens (x.cfg P t) q false =
        fusKalmFeed junk x.freq (optFin x.incl) x.sens (x.cfg 1 t) (quat q₀) true := by
  obtain ⟨h1, h2⟩ := startFrame_rotation hx
  obtain ⟨q₀, h3, h4⟩ := quat_from_rot_mtx_unit _ h1 h2 [] q
  refine ⟨q₀, h4, h3, ?_⟩
  obtain ⟨C, -, h5⟩ := fusKalman_mat junk x hf 1 t q₀
  unfold fusKalmFeed
  rw [if_neg (by simp [KalmIn.cfg, hG, hA, hM]), if_neg (by simp), if_neg (by simp [KalmIn.cfg, hG, hA, hM]), if_pos rfl]
  rw [show x.sens.a = some (vec x.a []) from rfl, show x.sens.m = some (vec x.m []) from rfl, kalmQuatInit_vec, h3, ok_bind]
  simp only [pure_eq]
  rw [ok_bind]
  simp only
  rw [show (x.cfg P t).P = mat P t from rfl, kalmPInit_mat, ok_bind]
  simp only
  rw [quatToUnit_quat, direction_of_norm_one h4]
  rw [show ({ x.cfg P t with P := mat 1 t } : KalmCfg XR) = x.cfg 1 t from rfl, h5, ok_bind, ok_bind]
  rfl

example : ![0, 0, 1] ⨯₃ (![1, 0, 1] : V3) ≠ 0 := by
  intro h
  have := congrFun h 1
  simp [cross_apply] at this

/-- C112, negation: when the field is parallel to the acceleration, for example because the magnetometer reports zeros, and the device is not upside
down, the attitude starts with NaN, and no error is reported. -/
theorem kalm_start_parallel (junk : ℕ → XR) (a m : V3) (h : a ⨯₃ m = 0) (ha : 0 < a 2) (q : Quat XR) :
    kalmQuatInit junk (some (vec a [])) (some (vec m [])) q = ok (0, nanQ, true) := by
  rw [kalmQuatInit_vec]
  have ha0 : a ≠ 0 := by rintro rfl; simp at ha
  have hu : 0 < unitOf a 2 := by
    rw [unitOf_ne ha0]
    have := Real.sqrt_pos.2 (dotProduct_self_pos' ha0)
    simp only [Pi.smul_apply, smul_eq_mul]
    positivity
  have h0 : unitOf (0 : V3) = Pi.single 0 1 := by rw [unitOf, if_pos rfl]
  have hF : startFrame a m = !![1, 1, unitOf a 0; 0, 0, unitOf a 1; 0, 0, unitOf a 2] := by
    unfold startFrame
    rw [h, show (0 : V3) ⨯₃ a = 0 by simp, h0]
    ext i j
    fin_cases i <;> fin_cases j <;> simp
  have hj : CReal.sqrt (-XR.fin (1 : ℝ) + XR.fin 0 - XR.fin (unitOf a 2) + lit 1) = XR.nan := by
    simp only [XR.lit_eq, XR.fin_neg, XR.fin_add, XR.fin_sub]
    show XR.sqrt _ = _
    simp only [XR.sqrt]
    rw [if_pos (by push_cast; linarith)]
  have hd : (mat (startFrame a m) []).data = [XR.fin 1, XR.fin 1, XR.fin (unitOf a 0), XR.fin 0, XR.fin 0, XR.fin (unitOf a 1), XR.fin 0, XR.fin 0,
      XR.fin (unitOf a 2)] := by
    rw [hF]
    simp [mat, mtxOf, List.ofFn_succ, Fin.divNat, Fin.modNat]
  unfold quatFromRotMtx
  rw [if_neg (by simp), hd]
  simp only [rd, List.getElem?_cons_zero, List.getElem?_cons_succ, ok_bind, pure_eq]
  rw [hj, XR.mul_nan]
  have hs : ∀ y z : XR, signedBy XR.nan y z = XR.nan := by
    intro y z
    unfold signedBy
    split_ifs
    · exact XR.nan_mul _
    · rfl
  rw [hs, toUnit_nan]
  unfold quatMagn
  simp only [XR.nan_mul, XR.add_nan, XR.nan_add, XR.sqrt_nan]

/-! ## Histories -/

/-- One call on the covariance and the attitude. -/
noncomputable def kalmCall (junk : ℕ → XR) (x : KalmIn) (s : Mtx XR × Quat XR × Bool) : Out (Int × Mtx XR × Quat XR × Bool) := do
  let (rc, _, c, q, b) ← fusKalmFeed junk x.freq (optFin x.incl) x.sens ⟨XR.fin x.varG, XR.fin x.varA, XR.fin x.varM, s.1⟩ s.2.1 s.2.2
  return (rc, c.P, q, b)

/-- A call with non-negative variances, after a successful `init`. -/
structure KalmIn.Good (x : KalmIn) : Prop where
  freq : 0 < x.freq
  varG : 0 ≤ x.varG
  varA : 0 ≤ x.varA
  varM : 0 ≤ x.varM

theorem kalmCall_mat (junk : ℕ → XR) (x : KalmIn) (hx : x.Good) (P : Matrix (Fin 4) (Fin 4) ℝ) (t : List XR) (q : ℍ[ℝ]) :
    ∃ C, mtxInv junk (mat (x.S q P) []) (Mtx.uninit junk 6 6) = ok (0, mat C []) ∧
      kalmCall junk x (mat P t, quat q, true) = ok (0, mat (x.post q P C) t, quat (x.attPost q P C), true) := by
  obtain ⟨C, h1, h2⟩ := kalm_feed_correct junk x hx.freq hx.varG hx.varA hx.varM P t q
  refine ⟨C, h1, ?_⟩
  unfold kalmCall
  simp only
  rw [show (⟨XR.fin x.varG, XR.fin x.varA, XR.fin x.varM, mat P t⟩ : KalmCfg XR) = x.cfg P t from rfl, h2, ok_bind]
  rfl

/-- C112, C63: whatever the readings, all calls of a history succeed, the covariance stays a matrix of real numbers, and the attitude after each
call has length one, or is zero. -/
theorem kalm_history_unit (junk : ℕ → XR) (t : List XR) (l : List KalmIn) (hl : ∀ x ∈ l, x.Good) (P : Matrix (Fin 4) (Fin 4) ℝ) (q : ℍ[ℝ]) :
    ∃ r : List (Matrix (Fin 4) (Fin 4) ℝ × ℍ[ℝ]), trace (kalmCall junk) l (mat P t, quat q, true) =
        ok (r.map fun x => (0, mat x.1 t, quat x.2, true)) ∧
      r.length = l.length ∧ ∀ x ∈ r, ‖x.2‖ = 1 ∨ x.2 = 0 := by
  induction l generalizing P q with
  | nil => exact ⟨[], rfl, rfl, by simp⟩
  | cons x l ih =>
    obtain ⟨C, -, h2⟩ := kalmCall_mat junk x (hl x (by simp)) P t q
    obtain ⟨r, h3, h4, h5⟩ := ih (fun y hy => hl y (by simp [hy])) (x.post q P C) (x.attPost q P C)
    refine ⟨(x.post q P C, x.attPost q P C) :: r, ?_, by simp [h4], ?_⟩
    · unfold trace
      rw [h2, ok_bind]
      simp only
      rw [h3]
      rfl
    · intro y hy
      rcases List.mem_cons.1 hy with rfl | hy
      · exact norm_direction_cases _
      · exact h5 y hy

theorem KalmIn.attPost_zero (x : KalmIn) {q : ℍ[ℝ]} (hq : ‖q‖ < 1e-6) (P : Matrix (Fin 4) (Fin 4) ℝ) (C : Matrix (Fin 6) (Fin 6) ℝ) :
    x.attPost q P C = 0 := by
  have h0 : direction q = 0 := by rw [direction, if_pos hq]
  have hz : direction (0 : ℍ[ℝ]) = 0 := by rw [direction, if_pos (by simp; norm_num)]
  have h1 : x.att q = 0 := by rw [KalmIn.att, eulerStep, h0, mul_zero, hz]
  have h2 : x.H q = 0 := by
    rw [KalmIn.H, h1]
    ext i j
    fin_cases i <;> fin_cases j <;> simp [KalmIn.jac]
  rw [KalmIn.attPost, KalmIn.gain, h1, h2]
  simp only [Matrix.transpose_zero, Matrix.mul_zero, Matrix.zero_mul, Matrix.zero_mulVec, zero_add]
  rw [show ofCoords 0 = 0 by ext <;> simp [ofCoords], hz]

/-- C112: an attitude shorter than `1e-6` becomes zero and stays so in every history, although all calls report success. -/
theorem kalm_zero_stuck (junk : ℕ → XR) (t : List XR) (l : List KalmIn) (hl : ∀ x ∈ l, x.Good) (P : Matrix (Fin 4) (Fin 4) ℝ) (q : ℍ[ℝ])
    (hq : ‖q‖ < 1e-6) :
    ∃ r : List (Matrix (Fin 4) (Fin 4) ℝ), trace (kalmCall junk) l (mat P t, quat q, true) = ok (r.map fun x => (0, mat x t, quat 0, true)) ∧
      r.length = l.length := by
  induction l generalizing P q with
  | nil => exact ⟨[], rfl, rfl⟩
  | cons x l ih =>
    obtain ⟨C, -, h2⟩ := kalmCall_mat junk x (hl x (by simp)) P t q
    rw [x.attPost_zero hq] at h2
    obtain ⟨r, h3, h4⟩ := ih (fun y hy => hl y (by simp [hy])) (x.post q P C) 0 (by simp; norm_num)
    refine ⟨x.post q P C :: r, ?_, by simp [h4]⟩
    unfold trace
    rw [h2, ok_bind]
    simp only
    rw [h3]
    rfl

/-- A call which meets the hypotheses: a tilted, turning device and an unknown inclination. -/
example : KalmIn.Good ⟨100, none, 0.09, 0.25, 0.64, ![1, 2, 9], ![20, -3, 40], ![0.1, 0, -0.2]⟩ := ⟨by norm_num, by norm_num, by norm_num, by norm_num⟩

end Verif
