import Verif.Spec.Fusion
import Verif.Props.Vectors2
import Verif.Props.Quat3
import Verif.Props.Quat5

/-!
# Helper lemmas about the sensor fusion model
-/

namespace Verif

open Quaternion Matrix Out

theorem vec3_eq (x : V3) : (⟨3, [XR.fin (x 0), XR.fin (x 1), XR.fin (x 2)]⟩ : Vec XR) = vec x [] := by
  unfold vec arr
  simp [List.ofFn_succ]

theorem vec3_mk (a b c : ℝ) : (⟨3, [XR.fin a, XR.fin b, XR.fin c]⟩ : Vec XR) = vec ![a, b, c] [] := by
  rw [← vec3_eq]; rfl

theorem lit_micro : (lit 1e-6 : XR) = XR.fin 1e-6 := by
  rw [XR.lit_eq]; norm_num

theorem len_nonneg (v : V3) : 0 ≤ len v := Real.sqrt_nonneg _

theorem vecCopy_vec3 (junk : ℕ → XR) (x : V3) : vecCopy (Vec.uninit junk 3) (vec x []) = ok (0, vec x []) := by
  rw [vecUninit_eq, vec_eq_vecOf, vecCopy_vec]

theorem lt_len {v : V3} (h : 1 ≤ v 0 * v 0 + v 1 * v 1 + v 2 * v 2) : 1e-6 < len v := by
  refine lt_of_lt_of_le ?_ (Real.le_sqrt' one_pos |>.2 ?_)
  · norm_num
  · simpa [dotProduct, Fin.sum_univ_three] using h

theorem vecNorm_len (x : V3) : vecNorm (vec x []) = ok (XR.fin (len x)) := vecNorm_vec x []

theorem badSize_sensor (x : Option V3) : badSize (sensor x) = false := by
  cases x <;> simp [badSize, sensor]

theorem sensValid_none : sensValid (sensor none) = ok false := rfl

theorem sensValid_some (x : V3) : sensValid (sensor (some x)) = ok (decide (1e-6 < len x)) := by
  unfold sensValid sensor
  simp only [Option.map_some]
  rw [vecNorm_len, ok_bind, XR.fin_abs, abs_of_nonneg (len_nonneg x), lit_micro]
  simp only [pure_eq]
  congr 1

theorem sensMissing_none : sensMissing (sensor none) = ok true := rfl

theorem sensMissing_some (x : V3) : sensMissing (sensor (some x)) = ok (decide (len x < 1e-6)) := by
  unfold sensMissing sensor
  simp only [Option.map_some]
  rw [vecNorm_len, ok_bind, XR.fin_abs, abs_of_nonneg (len_nonneg x), lit_micro]
  simp only [pure_eq]
  congr 1

theorem unitP_some (x : V3) : unitP (sensor (some x)) = ok (vec (unitOf x) []) := by
  unfold unitP sensor
  simp only [Option.map_some]
  rw [vecToUnit_vec]; rfl

theorem quatIsZero_quat (q : ℍ[ℝ]) : quatIsZero (quat q) = decide (‖q‖ < 1e-6) := by
  unfold quatIsZero
  rw [quat_magn_correct, XR.fin_abs, abs_of_nonneg (norm_nonneg q), lit_micro, Bool.eq_iff_iff, XR.fin_lt, decide_eq_true_iff]

theorem quatIsZero_of_le {q : ℍ[ℝ]} (h : 1e-6 ≤ ‖q‖) : ¬ quatIsZero (quat q) = true := by
  rw [quatIsZero_quat, decide_eq_true_iff]; exact not_lt.2 h

theorem quatOfVec_vec (v : V3) : quatOfVec (vec v []) = ok (quat (pureQ v)) := by
  unfold quatOfVec
  obtain ⟨r0, r1, r2⟩ := vec3_rd v []
  rw [r0, r1, r2]
  simp [quat, pureQ]

theorem quatUp_quat : (quatUp : Quat XR) = quat (pureQ up) := by
  simp [quatUp, quat, pureQ, up]

theorem quatRot_pure (q : ℍ[ℝ]) (v : V3) (qr : Quat XR) (h : 1e-6 ≤ ‖q‖) :
    ∃ r : ℝ, (quatRot (quat q) (quat (pureQ v)) qr).2 = ⟨XR.fin r, XR.fin (turned q v 0), XR.fin (turned q v 1), XR.fin (turned q v 2)⟩ := by
  rw [quatRot_quat q (pureQ v) qr h (by simp [pureQ]; norm_num)]
  exact ⟨_, rfl⟩

theorem vecCross_vec (x y : V3) (z : Fin 3 → XR) : vecCross (vec x []) (vec y []) (vecOf z []) = ok (0, vec (x ⨯₃ y) []) := by
  unfold vecCross
  rw [if_neg (by simp)]
  obtain ⟨r0, r1, r2⟩ := vec3_rd x []
  obtain ⟨s0, s1, s2⟩ := vec3_rd y []
  rw [r0, r1, r2, s0, s1, s2]
  simp only [ok_bind, pure_eq]
  rw [show (vecOf z []).data = [z 0, z 1, z 2] by simp [vecOf, arrOf, List.ofFn_succ]]
  rw [wr_lt _ (by simp), ok_bind, wr_lt _ (by simp), ok_bind, wr_lt _ (by simp), ok_bind, ← vec3_eq]
  simp [cross_apply, vecOf]

theorem fusCrossError_vec (junk : ℕ → XR) (q : ℍ[ℝ]) (b a : V3) (h : 1e-6 ≤ ‖q‖) :
    fusCrossError junk (quat q) (quat (pureQ b)) (vec a []) = ok (vec (a ⨯₃ turned q b) []) := by
  unfold fusCrossError
  obtain ⟨r, hr⟩ := quatRot_pure q b (quatJunk junk) h
  simp only [hr]
  rw [vec3_eq, vecUninit_eq, vecCross_vec]
  rfl

theorem fusEarthField_quat (junk : ℕ → XR) (incl : Option ℝ) (q : ℍ[ℝ]) (m : V3) (h : 1e-6 ≤ ‖q‖) :
    fusEarthField junk (optFin incl) (quat q) (quat (pureQ m)) =
      (XR.fin (earthField incl q m 0), XR.fin (earthField incl q m 2)) := by
  cases incl with
  | none =>
    unfold fusEarthField optFin
    simp only [Option.map_none]
    obtain ⟨r, hr⟩ := quatRot_pure q m (quatJunk junk) h
    rw [hr]
    simp only [XR.fin_mul, XR.fin_add]
    rw [XR.fin_sqrt (add_nonneg (mul_self_nonneg _) (mul_self_nonneg _))]
    rfl
  | some x =>
    have hl : (((3.14159265359 : ℚ)) : ℝ) = 3.14159265359 := by norm_num
    unfold fusEarthField optFin
    simp only [Option.map_some, zslPi, XR.lit_eq, hl, XR.fin_mul]
    rw [XR.fin_div (by norm_num), XR.fin_cos, XR.fin_sin]
    simp [earthField]

theorem earth_quat (incl : Option ℝ) (q : ℍ[ℝ]) (m : V3) :
    (⟨lit 0, XR.fin (earthField incl q m 0), lit 0, XR.fin (earthField incl q m 2)⟩ : Quat XR) =
      quat (pureQ (earthField incl q m)) := by
  have h : earthField incl q m 1 = 0 := by cases incl <;> simp [earthField]
  simp [quat, pureQ, h]

theorem dt_eq {f : ℕ} (hf : 0 < f) : (lit 1 / CReal.ofNat f : XR) = XR.fin (1 / (f : ℝ)) := by
  rw [XR.lit_eq, XR.ofNat_eq, XR.fin_div (by positivity)]; simp

theorem fusIntegrate_vec {f : ℕ} (hf : 0 < f) (w : V3) (q : ℍ[ℝ]) :
    fusIntegrate f (vec w []) (quat q) = ok (quat (eulerStep f w q)) := by
  unfold fusIntegrate
  rw [dt_eq hf, quatFromAngVel_vec _ _ _ _ _ (by positivity), ok_bind]
  simp only [pure_eq, quatToUnit_quat, direction_direction]
  unfold eulerStep pureQ
  rw [show (1 / (f : ℝ)) / 2 = 1 / (2 * f) by rw [div_div, mul_comm]]

theorem addAt_vec (x : V3) (i : Fin 3) (y : ℝ) :
    addAt (vec x []) i (XR.fin y) = ok (vec (Function.update x i (x i + y)) []) := by
  unfold addAt
  rw [(vec_is x []).rd i, ok_bind, wr_lt _ (by simp [vec, arr])]
  simp only [ok_bind, pure_eq, XR.fin_add]
  congr 1
  rw [← vec3_eq, ← vec3_eq]
  fin_cases i <;> simp [Function.update]

/-- The value limited to `[-l, l]`, as the code does it. -/
noncomputable def clampR (x l : ℝ) : ℝ := if l < x then l else if x < -l then -l else x

theorem clampAt_vec (x : V3) (i : Fin 3) (l : ℝ) :
    clampAt (vec x []) i (XR.fin l) = ok (vec (Function.update x i (clampR (x i) l)) []) := by
  have hw : ∀ y : ℝ, (do let d ← wr (vec x []).data (i : ℕ) (XR.fin y); return ({ vec x [] with data := d } : Vec XR)) =
      ok (vec (Function.update x i y) []) := by
    intro y
    rw [wr_lt _ (by simp [vec, arr])]
    simp only [ok_bind, pure_eq]
    congr 1
    rw [← vec3_eq, ← vec3_eq]
    fin_cases i <;> simp [Function.update]
  unfold clampAt clampR
  rw [(vec_is x []).rd i, ok_bind]
  by_cases h1 : l < x i
  · rw [if_pos ((XR.fin_gt _ _).2 h1), if_pos h1, hw]
  · rw [if_neg (by rwa [XR.fin_gt]), if_neg h1]
    by_cases h2 : x i < -l
    · rw [XR.fin_neg, if_pos ((XR.fin_lt _ _).2 h2), if_pos h2, hw]
    · rw [XR.fin_neg, if_neg (by rwa [XR.fin_lt]), if_neg h2]
      simp

theorem trace_chain {ι σ τ : Type} (enc : τ → σ) (step : ι → σ → Out (Int × σ)) (Rel : τ → Int × τ → Prop)
    (h : ∀ i s, ∃ rc s', step i (enc s) = ok (rc, enc s') ∧ Rel s (rc, s')) :
    ∀ (l : List ι) (s : τ) (rc0 : Int), ∃ t : List (Int × τ), trace step l (enc s) = ok (t.map fun x => (x.1, enc x.2)) ∧
      t.length = l.length ∧ List.IsChain (fun x y => Rel x.2 y) ((rc0, s) :: t) := by
  intro l
  induction l with
  | nil => exact fun s rc0 => ⟨[], rfl, rfl, List.isChain_singleton _⟩
  | cons i l ih =>
    intro s rc0
    obtain ⟨rc, s', h1, h2⟩ := h i s
    obtain ⟨t, t1, t2, t3⟩ := ih s' rc
    refine ⟨(rc, s') :: t, ?_, by simp [t2], ?_⟩
    · unfold trace
      rw [h1, ok_bind]
      simp only
      rw [t1]
      rfl
    · exact List.isChain_cons_cons.2 ⟨h2, t3⟩

theorem trace_inv {ι σ τ : Type} (enc : τ → σ) (step : ι → σ → Out (Int × σ)) (Inv : τ → Prop)
    (h : ∀ i s, Inv s → ∃ rc s', step i (enc s) = ok (rc, enc s') ∧ Inv s') :
    ∀ (l : List ι) (s : τ), Inv s → ∃ t : List (Int × τ), trace step l (enc s) = ok (t.map fun x => (x.1, enc x.2)) ∧
      t.length = l.length ∧ ∀ y ∈ t, Inv y.2 := by
  intro l
  induction l with
  | nil => exact fun s _ => ⟨[], rfl, rfl, by simp⟩
  | cons i l ih =>
    intro s hs
    obtain ⟨rc, s', h1, h2⟩ := h i s hs
    obtain ⟨t, t1, t2, t3⟩ := ih s' h2
    refine ⟨(rc, s') :: t, ?_, by simp [t2], by simpa using ⟨h2, fun a b => t3 (a, b)⟩⟩
    unfold trace
    rw [h1, ok_bind]
    simp only
    rw [t1]
    rfl

theorem one_le_norm_rate (s : ℝ) (w : V3) : 1 ≤ ‖1 + s • pureQ w‖ := by
  rw [← abs_of_nonneg (norm_nonneg (1 + s • pureQ w)), ← one_le_sq_iff_one_le_abs, norm_sq_quat]
  simp only [pureQ, Quaternion.re_add, Quaternion.imI_add, Quaternion.imJ_add, Quaternion.imK_add, Quaternion.re_one,
    Quaternion.imI_one, Quaternion.imJ_one, Quaternion.imK_one, re_smul, imI_smul, imJ_smul, imK_smul, smul_eq_mul,
    hq_re, hq_imI, hq_imJ, hq_imK]
  nlinarith [sq_nonneg (s * w 0), sq_nonneg (s * w 1), sq_nonneg (s * w 2)]

theorem norm_eulerStep (f : ℕ) (w : V3) {q : ℍ[ℝ]} (hq : 1e-6 ≤ ‖q‖) : ‖eulerStep f w q‖ = 1 := by
  refine norm_direction (le_trans ?_ (one_le_norm_rate (1 / (2 * (f : ℝ))) w |>.trans_eq ?_))
  · norm_num
  · rw [norm_mul, norm_direction hq, mul_one]

end Verif
