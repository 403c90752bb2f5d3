import Verif.Lemmas.XRNan
import Verif.Props.Fusion4

/-!
# C63, C65, C94, C99: singular readings and rejections of AQUA; the corrections of Mahony and Madgwick
-/

namespace Verif

open Quaternion Matrix Out

/-! ### AQUA: singular readings -/

/-- The quaternion all of whose components are NaN. -/
def nanQ : Quat XR := ⟨XR.nan, XR.nan, XR.nan, XR.nan⟩

theorem toUnit_nan {q : Quat XR} (h : quatMagn q = XR.nan) : quatToUnit q = nanQ := by
  unfold quatToUnit
  simp only [h, XR.abs_nan, XR.nan_lt, XR.div_nan, nanQ, Bool.false_eq_true, if_false]

theorem magn_nanQ : quatMagn nanQ = XR.nan := by
  simp [quatMagn, nanQ, XR.nan_mul, XR.nan_add, XR.sqrt_nan]

theorem toUnit_nanQ : quatToUnit nanQ = nanQ := toUnit_nan magn_nanQ

theorem mult_nan (q : Quat XR) : quatMult nanQ q = nanQ := by
  simp [quatMult, nanQ, XR.nan_mul, XR.nan_add, XR.nan_sub]

theorem mult_nan' (q : Quat XR) : quatMult q nanQ = nanQ := by
  simp [quatMult, nanQ, XR.mul_nan, XR.nan_add, XR.nan_sub]

theorem sum_nan (q : Quat XR) (t : XR) : quatSum q (quatScale nanQ t) = nanQ := by
  simp [quatSum, quatScale, nanQ, XR.nan_mul, XR.add_nan]

theorem aquaApply_nan (junk : ℕ → XR) {d : Quat XR} (hd : quatMagn d = XR.nan) (eps : XR) (t : ℝ) (h0 : 0 ≤ t) (h1 : t ≤ 1) (p : ℍ[ℝ]) :
    aquaApply junk d eps (XR.fin t) (quat p) = nanQ ∨ (t = 0 ∧ aquaApply junk d eps (XR.fin t) (quat p) = quat p) := by
  have hone : (quatIdentity : Quat XR) = quat 1 := by simp [quatIdentity, quat]
  have hg : ¬ ((CReal.lt (XR.fin t) (lit 0) || CReal.gt (XR.fin t) (lit 1)) = true) := by simp [h0, h1]
  unfold aquaApply
  simp only
  split_ifs
  · left
    unfold quatLerp
    rw [if_neg hg]
    simp only
    rw [toUnit_nan hd, sum_nan, toUnit_nanQ, mult_nan']
  · unfold quatSlerp
    rw [if_neg hg]
    simp only
    rw [toUnit_nan hd]
    by_cases t0 : t = 0
    · right
      subst t0
      refine ⟨rfl, ?_⟩
      rw [if_pos (by simp), hone, quat_to_unit_idem 1 (by simp), quat_mult_correct, mul_one]
    · left
      rw [if_neg (by simpa using t0)]
      split_ifs with t1 t2 t3
      · exact mult_nan' _
      · simp [nanQ, XR.mul_nan, XR.add_nan, XR.nan_sub, XR.abs_nan, XR.nan_lt] at t2
      · simp [nanQ, XR.mul_nan, XR.nan_add, XR.add_nan, XR.abs_nan, XR.nan_lt] at t3
      · simp only
        rw [sum_nan]
        exact mult_nan' _

theorem aquaDeltaAcc_nan (r : ℝ) {v : V3} (h : v = -up) :
    quatMagn (aquaDeltaAcc (⟨XR.fin r, XR.fin (v 0), XR.fin (v 1), XR.fin (v 2)⟩ : Quat XR)) = XR.nan := by
  subst h
  have h0 : (XR.fin 0 : XR) / XR.fin 0 = XR.nan := by rw [XR.fin_div_zero]; simp [XR.infOf]
  unfold aquaDeltaAcc quatMagn
  simp only [XR.lit_eq, XR.fin_add, XR.fin_mul, XR.fin_neg, Rat.cast_one, Rat.cast_ofNat, Rat.cast_zero, up, Pi.neg_apply,
    Matrix.cons_val_zero, Matrix.cons_val_one, Matrix.cons_val, neg_zero, neg_add_cancel, mul_zero]
  rw [XR.fin_sqrt le_rfl, Real.sqrt_zero, h0]
  simp only [XR.nan_mul, XR.add_nan, XR.nan_add, XR.sqrt_nan]

theorem aquaDeltaMag_nan (r : ℝ) {v : V3} (h : v 1 = 0 ∧ v 0 ≤ 0) :
    quatMagn (aquaDeltaMag (⟨XR.fin r, XR.fin (v 0), XR.fin (v 1), XR.fin (v 2)⟩ : Quat XR)) = XR.nan := by
  have h0 : (XR.fin 0 : XR) / XR.fin 0 = XR.nan := by rw [XR.fin_div_zero]; simp [XR.infOf]
  unfold aquaDeltaMag quatMagn
  simp only [XR.lit_eq, XR.fin_add, XR.fin_mul, Rat.cast_ofNat, Rat.cast_zero]
  rw [XR.fin_sqrt (add_nonneg (mul_self_nonneg _) (mul_self_nonneg _))]
  have hy : Real.sqrt (v 0 * v 0 + v 1 * v 1) = -v 0 := by
    rw [h.1, mul_zero, add_zero, Real.sqrt_mul_self_eq_abs, abs_of_nonpos h.2]
  simp only [hy, XR.fin_add, XR.fin_mul]
  rw [show -v 0 * -v 0 + v 0 * -v 0 = 0 by ring, h.1, mul_zero (2 : ℝ), XR.fin_sqrt (a := 0) le_rfl, Real.sqrt_zero, h0]
  simp only [XR.nan_mul, XR.add_nan, XR.sqrt_nan]

/-- What the attitude is after some AQUA feeds: a quaternion or, after a singular reading, NaN in all components. -/
noncomputable def aquaState (x : Option ℍ[ℝ]) : Quat XR :=
  match x with
  | some q => quat q
  | none => nanQ

/-- One feed of the AQUA filter. -/
structure AquaCall where
  freq : ℕ
  pos : 0 < freq
  reading : Reading

/-- The feed of a filter that was fed before, as a transition of the attitude. -/
noncomputable def aquaCall (junk : ℕ → XR) (c : AquaR) (i : AquaCall) (q : Quat XR) : Out (Int × Quat XR) := do
  let (rc, _, _, q, _) ← fusAquaFeed junk i.freq true c.cfg i.reading.sens q
  return (rc, q)

/-- The readings of a call are singular for the attitude `q`: seen from the attitude predicted by the gyroscope the acceleration points
exactly down, or, seen from the attitude corrected with it, the field has no horizontal part or points exactly south. -/
def Singular (c : AquaR) (i : AquaCall) (q : ℍ[ℝ]) : Prop :=
  ∃ a, i.reading.a = some a ∧ 1e-6 < len a ∧ (seen (aquaGyro i.freq q i.reading.g) a = -up ∨
    ∃ m, i.reading.m = some m ∧ 1e-6 < len m ∧ seen (aquaAcc c.ea c.alpha a (aquaGyro i.freq q i.reading.g)) m 1 = 0 ∧
      seen (aquaAcc c.ea c.alpha a (aquaGyro i.freq q i.reading.g)) m 0 ≤ 0)

theorem aquaCall_regular (junk : ℕ → XR) {c : AquaR} (hc : c.Valid) (i : AquaCall) (q : ℍ[ℝ]) (hq : 1e-6 ≤ ‖q‖) (hs : ¬ Singular c i q) :
    ∃ q', aquaCall junk c i (quat q) = ok (0, quat q') ∧ ‖q'‖ = 1 := by
  obtain ⟨f, hf, ra, rm, g⟩ := i
  unfold Singular at hs
  simp only at hs
  unfold aquaCall
  by_cases ha : ∃ a, ra = some a ∧ 1e-6 < len a
  · obtain ⟨a, rfl, ha⟩ := ha
    push Not at hs
    obtain ⟨hs1, hs2⟩ := hs a rfl ha
    by_cases hm : ∃ m, rm = some m ∧ 1e-6 < len m
    · obtain ⟨m, rfl, hm⟩ := hm
      have hl := hs2 m rfl hm
      obtain ⟨q', e, -, n⟩ := aqua_feed_mag junk hf hc true q hq a m g ha hm hs1 (by
        by_cases h : seen (aquaAcc c.ea c.alpha a (aquaGyro f q g)) m 1 = 0
        · exact Or.inr (hl h)
        · exact Or.inl h)
      refine ⟨q', ?_, n⟩
      simp only
      rw [e]; rfl
    · obtain ⟨q', e, -, n⟩ := aqua_feed_acc junk hf hc true q hq a g rm ha (by
        intro x hx
        by_contra h
        exact hm ⟨x, hx, not_le.1 h⟩) hs1
      refine ⟨q', ?_, n⟩
      simp only
      rw [e]; rfl
  · obtain ⟨e, n⟩ := aqua_feed_gyro junk hf hc q hq ⟨ra, rm, g⟩ (by
      intro a h
      by_contra h'
      exact ha ⟨a, h, not_le.1 h'⟩)
    refine ⟨_, ?_, n⟩
    simp only
    rw [e]; rfl

theorem sensValid_ok (x : Option V3) : ∃ b, sensValid (sensor x) = ok b := by
  cases x with
  | none => exact ⟨_, rfl⟩
  | some v => exact ⟨_, sensValid_some v⟩

theorem aquaCall_cfg {c : AquaR} (hc : c.Valid) (junk : ℕ → XR) (i : AquaCall) (q : Quat XR) :
    aquaCall junk c i q = (do
      let (rc, _, q) ← fusAqua junk i.freq c.cfg i.reading.sens q
      return (rc, q)) := by
  unfold aquaCall fusAquaFeed
  obtain ⟨h0, h1, h2, h3⟩ := hc
  rw [if_neg (by simp [AquaR.cfg, h0, h1, h2, h3]), if_pos rfl, ok_bind]
  simp only
  rw [Out.bind_assoc']
  rfl

/-- The magnetometer part of a feed ends in NaN or a unit attitude. -/
theorem aqua_mag_total (junk : ℕ → XR) {c : AquaR} (hc : c.Valid) (m : V3) {p : ℍ[ℝ]} (hp : ‖p‖ = 1) :
    quatToUnit (aquaApply junk (aquaDeltaMag (quatRot (quatInv (quat p)) (quat (pureQ (unitOf m))) (quatJunk junk)).2) (XR.fin c.em) (XR.fin c.beta) (quat p)) = nanQ ∨
    ∃ q', ‖q'‖ = 1 ∧ quatToUnit (aquaApply junk (aquaDeltaMag (quatRot (quatInv (quat p)) (quat (pureQ (unitOf m))) (quatJunk junk)).2) (XR.fin c.em) (XR.fin c.beta) (quat p)) = quat q' := by
  by_cases h : seen p m 1 ≠ 0 ∨ 0 < seen p m 0
  · obtain ⟨e, n⟩ := aquaMag_code junk c.em c.beta hc.2.2.1 hc.2.2.2 m hp h
    exact Or.inr ⟨_, n, by rw [e, quatToUnit_quat, direction_of_norm_one n]⟩
  · push Not at h
    have hp' : 1e-6 ≤ ‖p‖ := by rw [hp]; norm_num
    have hi : 1e-6 ≤ ‖p⁻¹‖ := by rw [norm_inv_one hp]; norm_num
    obtain ⟨r, hr⟩ := quatRot_pure p⁻¹ (unitOf m) (quatJunk junk) hi
    rw [quatInv_quat p hp', hr, show turned p⁻¹ (unitOf m) = seen p m from rfl]
    rcases aquaApply_nan junk (aquaDeltaMag_nan r h) (XR.fin c.em) c.beta hc.2.2.1 hc.2.2.2 p with e | ⟨-, e⟩
    · left; rw [e, toUnit_nanQ]
    · right; exact ⟨p, hp, by rw [e, quatToUnit_quat, direction_of_norm_one hp]⟩

theorem aquaCall_total (junk : ℕ → XR) {c : AquaR} (hc : c.Valid) (i : AquaCall) (q : ℍ[ℝ]) (hq : 1e-6 ≤ ‖q‖) :
    ∃ x, aquaCall junk c i (quat q) = ok (0, aquaState x) ∧ ∀ q', x = some q' → ‖q'‖ = 1 := by
  obtain ⟨f, hf, ra, rm, g⟩ := i
  rw [aquaCall_cfg hc]
  simp only
  rw [aqua_start junk hf _ _ hq]
  simp only
  have hp : ‖aquaGyro f q g‖ = 1 := norm_eulerStep f _ hq
  have fin : ∀ {p : ℍ[ℝ]} (_ : ‖p‖ = 1), quatToUnit (quat p) = aquaState (some p) := by
    intro p n
    rw [quatToUnit_quat, direction_of_norm_one n]; rfl
  cases ra with
  | none =>
    refine ⟨some (aquaGyro f q g), ?_, by rintro q' ⟨⟩; exact hp⟩
    rw [← fin hp]; rfl
  | some a =>
    rw [sensValid_some, ok_bind]
    by_cases ha : 1e-6 < len a
    · rw [if_pos (by simpa using ha), unitP_some, ok_bind, quatOfVec_vec, ok_bind]
      rw [show c.cfg.ea = XR.fin c.ea from rfl, show c.cfg.alpha = XR.fin c.alpha from rfl, show c.cfg.em = XR.fin c.em from rfl,
        show c.cfg.beta = XR.fin c.beta from rfl]
      have hacc : aquaApply junk (aquaDeltaAcc (quatRot (quatInv (quat (aquaGyro f q g))) (quat (pureQ (unitOf a))) (quatJunk junk)).2)
            (XR.fin c.ea) (XR.fin c.alpha) (quat (aquaGyro f q g)) = nanQ ∨
          ∃ p, ‖p‖ = 1 ∧ aquaApply junk (aquaDeltaAcc (quatRot (quatInv (quat (aquaGyro f q g))) (quat (pureQ (unitOf a))) (quatJunk junk)).2)
            (XR.fin c.ea) (XR.fin c.alpha) (quat (aquaGyro f q g)) = quat p := by
        by_cases h : seen (aquaGyro f q g) a = -up
        · have hp' : 1e-6 ≤ ‖aquaGyro f q g‖ := by rw [hp]; norm_num
          have hi : 1e-6 ≤ ‖(aquaGyro f q g)⁻¹‖ := by rw [norm_inv_one hp]; norm_num
          obtain ⟨r, hr⟩ := quatRot_pure (aquaGyro f q g)⁻¹ (unitOf a) (quatJunk junk) hi
          rw [quatInv_quat _ hp', hr, show turned (aquaGyro f q g)⁻¹ (unitOf a) = seen (aquaGyro f q g) a from rfl]
          rcases aquaApply_nan junk (aquaDeltaAcc_nan r h) (XR.fin c.ea) c.alpha hc.1 hc.2.1 (aquaGyro f q g) with e | ⟨-, e⟩
          · exact Or.inl e
          · exact Or.inr ⟨_, hp, e⟩
        · obtain ⟨e, n⟩ := aquaAcc_code junk c.ea c.alpha hc.1 hc.2.1 a hp h
          exact Or.inr ⟨_, n, e⟩
      rcases hacc with e | ⟨p, n, e⟩
      · rw [e]
        obtain ⟨b, hb⟩ := sensValid_ok rm
        rw [hb, ok_bind]
        refine ⟨none, ?_, by rintro q' ⟨⟩⟩
        cases b
        · simp only [Bool.false_eq_true, if_false, pure_eq, ok_bind, toUnit_nanQ]; rfl
        · cases rm with
          | none => simp [sensValid_none] at hb
          | some m =>
            rw [if_pos rfl, unitP_some, ok_bind, quatOfVec_vec, ok_bind]
            unfold aquaApply
            simp only [mult_nan, toUnit_nanQ, pure_eq, ok_bind]; rfl
      · rw [e]
        cases rm with
        | none =>
          refine ⟨some p, ?_, by rintro q' ⟨⟩; exact n⟩
          rw [← fin n]; rfl
        | some m =>
          rw [sensValid_some, ok_bind]
          by_cases hm : 1e-6 < len m
          · rw [if_pos (by simpa using hm), unitP_some, ok_bind, quatOfVec_vec, ok_bind]
            rcases aqua_mag_total junk hc m n with e' | ⟨q', n', e'⟩
            · refine ⟨none, ?_, by rintro q' ⟨⟩⟩
              simp only [e', pure_eq, ok_bind]; rfl
            · refine ⟨some q', ?_, by rintro q' ⟨⟩; exact n'⟩
              simp only [e', pure_eq, ok_bind]; rfl
          · refine ⟨some p, ?_, by rintro q' ⟨⟩; exact n⟩
            rw [if_neg (by simpa using hm), ← fin n]; rfl
    · refine ⟨some (aquaGyro f q g), ?_, by rintro q' ⟨⟩; exact hp⟩
      rw [if_neg (by simpa using ha), ← fin hp]; rfl

theorem aquaCall_nan (junk : ℕ → XR) {c : AquaR} (hc : c.Valid) (i : AquaCall) : aquaCall junk c i nanQ = ok (0, nanQ) := by
  obtain ⟨f, hf, ra, rm, g⟩ := i
  rw [aquaCall_cfg hc]
  simp only
  unfold fusAqua
  rw [if_neg (by simp [Reading.sens, badSize_sensor]), if_neg (by
    unfold quatIsZero
    rw [magn_nanQ, XR.abs_nan, XR.nan_lt]; simp)]
  simp only [toUnit_nanQ]
  rw [show (Reading.sens ⟨ra, rm, g⟩).g = vec g [] from rfl, show (lit (-1) : XR) = XR.fin (-1) by simp, vecScalarMult_vec, ok_bind]
  simp only
  have hw : quatFromAngVel (vec (fun i => g i * -1) []) nanQ (lit 1 / CReal.ofNat f) nanQ = ok (0, nanQ) := by
    unfold quatFromAngVel
    obtain ⟨r0, r1, r2⟩ := vec3_rd (fun i => g i * -1) []
    rw [dt_eq hf, if_neg (by simp), r0, r1, r2]
    simp only [ok_bind, toUnit_nanQ, mult_nan', sum_nan, pure_eq]
  rw [hw, ok_bind]
  simp only
  obtain ⟨b, hb⟩ := sensValid_ok ra
  obtain ⟨b', hb'⟩ := sensValid_ok rm
  rw [show (Reading.sens ⟨ra, rm, g⟩).a = sensor ra from rfl, show (Reading.sens ⟨ra, rm, g⟩).m = sensor rm from rfl, hb, ok_bind]
  cases b
  · simp only [Bool.false_eq_true, if_false, pure_eq, ok_bind, toUnit_nanQ]
  · cases ra with
    | none => simp [sensValid_none] at hb
    | some a =>
      rw [if_pos rfl, unitP_some, ok_bind, quatOfVec_vec, ok_bind, hb', ok_bind]
      cases b'
      · unfold aquaApply
        simp only [mult_nan, Bool.false_eq_true, if_false, pure_eq, ok_bind, toUnit_nanQ]
      · cases rm with
        | none => simp [sensValid_none] at hb'
        | some m =>
          rw [if_pos rfl, unitP_some, ok_bind, quatOfVec_vec, ok_bind]
          unfold aquaApply
          simp only [mult_nan, pure_eq, ok_bind, toUnit_nanQ]


/-- C63, part. A feed with an attitude of at least `1e-6` whose readings are not singular leaves a unit attitude. Missing: singular
readings, for which the claim is false, see `aqua_upside_down`. -/
theorem aqua_feed_unit_partial (junk : ℕ → XR) {c : AquaR} (hc : c.Valid) (i : AquaCall) (q : ℍ[ℝ]) (hq : 1e-6 ≤ ‖q‖) (hs : ¬ Singular c i q) :
    ∃ q', aquaCall junk c i (quat q) = ok (0, quat q') ∧ ‖q'‖ = 1 := aquaCall_regular junk hc i q hq hs

/-- C63. Over every history of feeds of an AQUA filter with valid gains that was fed before no call has undefined behaviour; each leaves a
unit attitude or NaN (code 0) or the previous attitude (`-EINVAL`); and once the attitude is NaN it stays NaN. -/
theorem aqua_history (junk : ℕ → XR) {c : AquaR} (hc : c.Valid) (calls : List AquaCall) (q : ℍ[ℝ]) :
    ∃ t : List (Int × Option ℍ[ℝ]),
      trace (aquaCall junk c) calls (quat q) = ok (t.map fun x => (x.1, aquaState x.2)) ∧ t.length = calls.length ∧
      List.IsChain (fun x y => ((y.1 = 0 ∧ ∀ q', y.2 = some q' → ‖q'‖ = 1) ∨ (y.1 = -EINVAL ∧ y.2 = x.2)) ∧ (x.2 = none → y.2 = none))
        ((0, some q) :: t) := by
  refine trace_chain aquaState (aquaCall junk c)
    (fun x y => ((y.1 = 0 ∧ ∀ q', y.2 = some q' → ‖q'‖ = 1) ∨ (y.1 = -EINVAL ∧ y.2 = x)) ∧ (x = none → y.2 = none)) ?_ calls (some q) 0
  intro i x
  cases x with
  | none => exact ⟨0, none, aquaCall_nan junk hc i, Or.inl ⟨rfl, by rintro q' ⟨⟩⟩, fun _ => rfl⟩
  | some q =>
    by_cases hq : 1e-6 ≤ ‖q‖
    · obtain ⟨x, e, n⟩ := aquaCall_total junk hc i q hq
      exact ⟨0, x, e, Or.inl ⟨rfl, n⟩, by rintro ⟨⟩⟩
    · refine ⟨-EINVAL, some q, ?_, Or.inr ⟨rfl, rfl⟩, by rintro ⟨⟩⟩
      rw [aquaCall_cfg hc]
      unfold fusAqua
      rw [if_neg (by simp [Reading.sens, badSize_sensor]), if_pos (by
        simp only [aquaState]
        rw [quatIsZero_quat, decide_eq_true_iff]; exact not_le.1 hq)]
      rfl

/-- C63, C99. The claims fail for a measurement seen exactly upside down: the accepted feed leaves NaN in every component, for every positive
gain (and, by `aqua_history`, the filter never recovers). -/
theorem aqua_upside_down (junk : ℕ → XR) {c : AquaR} (hc : c.Valid) (h : 0 < c.alpha) {f : ℕ} (hf : 0 < f) (q : ℍ[ℝ]) (hq : 1e-6 ≤ ‖q‖) (a g : V3)
    (ha : 1e-6 < len a) (hs : seen (aquaGyro f q g) a = -up) :
    aquaCall junk c ⟨f, hf, ⟨some a, none, g⟩⟩ (quat q) = ok (0, nanQ) := by
  have hp : ‖aquaGyro f q g‖ = 1 := norm_eulerStep f _ hq
  have hp' : 1e-6 ≤ ‖aquaGyro f q g‖ := by rw [hp]; norm_num
  have hi : 1e-6 ≤ ‖(aquaGyro f q g)⁻¹‖ := by rw [norm_inv_one hp]; norm_num
  rw [aquaCall_cfg hc]
  simp only
  rw [aqua_start junk hf _ _ hq]
  simp only
  rw [sensValid_some, ok_bind, if_pos (by simpa using ha), unitP_some, ok_bind, quatOfVec_vec, ok_bind]
  obtain ⟨r, hr⟩ := quatRot_pure (aquaGyro f q g)⁻¹ (unitOf a) (quatJunk junk) hi
  rw [quatInv_quat _ hp', hr, show turned (aquaGyro f q g)⁻¹ (unitOf a) = seen (aquaGyro f q g) a from rfl, sensValid_none]
  rcases aquaApply_nan junk (aquaDeltaAcc_nan r hs) (XR.fin c.ea) c.alpha hc.1 hc.2.1 (aquaGyro f q g) with e | ⟨h0, -⟩
  · rw [show c.cfg.ea = XR.fin c.ea from rfl, show c.cfg.alpha = XR.fin c.alpha from rfl, e]
    simp only [ok_bind, Bool.false_eq_true, if_false, pure_eq, toUnit_nanQ]
  · exact absurd h0 h.ne'

theorem aquaGyro_rest (f : ℕ) : aquaGyro f 1 0 = 1 := by
  have h1 : direction (1 : ℍ[ℝ]) = 1 := direction_of_norm_one (by simp)
  have : pureQ (fun i => (0 : V3) i * -1) = 0 := by ext <;> simp [pureQ]
  unfold aquaGyro eulerStep
  rw [this, smul_zero, add_zero, one_mul, h1, h1]

theorem len_neg_up : len (-up) = 1 := by
  unfold len
  simp [up]

theorem seen_one {v : V3} (h : len v = 1) : seen 1 v = v := by
  unfold seen
  rw [inv_one, turned_one, unitOf_of_len h]

/-- A device at rest, believed upright, that is lying upside down. -/
example (junk : ℕ → XR) : aquaCall junk ⟨0.5, 0.5, 0.9, 0.9⟩ ⟨100, by norm_num, ⟨some (-up), none, 0⟩⟩ (quat 1) = ok (0, nanQ) :=
  aqua_upside_down junk ⟨by norm_num, by norm_num, by norm_num, by norm_num⟩ (by norm_num) _ 1 (by norm_num) _ _ (by rw [len_neg_up]; norm_num)
    (by rw [aquaGyro_rest, seen_one len_neg_up])

/-- The hypotheses of `aqua_feed_acc`, `aqua_full_gain_acc` and `aqua_toward`. -/
example (junk : ℕ → XR) : ∃ s q', fusAquaFeed junk 100 true (AquaR.cfg ⟨1, 1, 0.9, 0.9⟩) (Reading.sens ⟨some ![1, 0, 0], none, 0⟩) (quat 1) =
    ok (0, s, AquaR.cfg ⟨1, 1, 0.9, 0.9⟩, quat q', true) ∧ ‖q'‖ = 1 ∧ turned q' up = unitOf ![1, 0, 0] :=
  aqua_full_gain_acc junk (by norm_num) ⟨by norm_num, by norm_num, by norm_num, by norm_num⟩ rfl 1 (by norm_num) _ _ none (by rw [len_north]; norm_num)
    (by simp) (by
      rw [aquaGyro_rest, seen_one len_north]
      intro h
      have := congrFun h 0
      simp [up] at this)

theorem accQ_up : accQ up = 1 := by
  have h4 : Real.sqrt (2 * (1 + 1)) = 2 := by rw [show (2 : ℝ) * (1 + 1) = 2 ^ 2 by norm_num, Real.sqrt_sq (by norm_num)]
  ext <;> simp [accQ, up]

/-- The hypotheses of `aqua_feed_mag` and `aqua_full_gain_mag`. -/
example (junk : ℕ → XR) : ∃ s q', fusAquaFeed junk 100 true (AquaR.cfg ⟨1, 1, 0.9, 0.9⟩) (Reading.sens ⟨some up, some ![1, 0, 0], 0⟩) (quat 1) =
    ok (0, s, AquaR.cfg ⟨1, 1, 0.9, 0.9⟩, quat q', true) ∧ ‖q'‖ = 1 ∧ turned q' up = unitOf up ∧
      turned q'⁻¹ (unitOf ![1, 0, 0]) 1 = 0 ∧ 0 < turned q'⁻¹ (unitOf ![1, 0, 0]) 0 :=
  aqua_full_gain_mag junk (by norm_num) ⟨by norm_num, by norm_num, by norm_num, by norm_num⟩ rfl rfl 1 (by norm_num) _ _ _ (by rw [len_up]; norm_num)
    (by rw [len_north]; norm_num) (by
      rw [aquaGyro_rest, seen_one len_up]
      intro h
      have := congrFun h 2
      simp only [up, Pi.neg_apply, Matrix.cons_val] at this
      linarith) (by
      have h : aquaAcc 0.9 1 up 1 = 1 := by
        unfold aquaAcc
        rw [seen_one len_up, accQ_up, blend_one _ (by simp), one_mul]
      simp only
      rw [aquaGyro_rest, h, seen_one len_north]
      right; simp)

/-! ### AQUA: rejections -/

/-- C65. AQUA rejects gains outside `[0, 1]`, sensor vectors that are not three-dimensional and an attitude shorter than `1e-6`, leaving the
sensors and the attitude alone, once it was fed. For every scalar type. -/
theorem aqua_feed_rejects {R : Type} [CReal R] (junk : ℕ → R) (f : ℕ) (c : AquaCfg R) (s : Sens R) (q : Quat R)
    (h : CReal.lt c.alpha (lit 0) = true ∨ CReal.gt c.alpha (lit 1) = true ∨ CReal.lt c.beta (lit 0) = true ∨ CReal.gt c.beta (lit 1) = true ∨
      (∃ a, s.a = some a ∧ a.sz ≠ 3) ∨ (∃ m, s.m = some m ∧ m.sz ≠ 3) ∨ s.g.sz ≠ 3 ∨ CReal.lt (CReal.abs (quatMagn q)) (lit 1e-6) = true) :
    fusAquaFeed junk f true c s q = ok (-EINVAL, s, c, q, true) := by
  unfold fusAquaFeed
  by_cases h1 : (CReal.lt c.alpha (lit 0) || CReal.gt c.alpha (lit 1) || CReal.lt c.beta (lit 0) || CReal.gt c.beta (lit 1)) = true
  · rw [if_pos h1]
  · rw [if_neg h1, if_pos rfl, ok_bind]
    simp only [Bool.or_eq_true, not_or] at h1
    obtain ⟨⟨⟨g1, g2⟩, g3⟩, g4⟩ := h1
    have : fusAqua junk f c s q = ok (-EINVAL, s, q) := by
      unfold fusAqua
      by_cases h2 : badSize s.a = true ∨ badSize s.m = true ∨ s.g.sz ≠ 3
      · rw [if_pos h2]
      · rw [if_neg h2]
        push Not at h2
        obtain ⟨b1, b2, b3⟩ := h2
        rw [if_pos ?_]
        rcases h with h | h | h | h | ⟨a, ha, hs⟩ | ⟨m, hm, hs⟩ | h | h
        · exact absurd h g1
        · exact absurd h g2
        · exact absurd h g3
        · exact absurd h g4
        · rw [ha] at b1; simp [badSize, hs] at b1
        · rw [hm] at b2; simp [badSize, hs] at b2
        · exact absurd b3 h
        · exact h
    refine Eq.trans (congrArg (fun x => x >>= _) this) ?_
    rfl

/-- C65. The claim fails for the first feed: without an accelerometer (a NULL pointer, which later feeds accept) it dereferences NULL. -/
theorem aqua_first_null_ub {R : Type} [CReal R] (junk : ℕ → R) (f : ℕ) (c : AquaCfg R)
    (hc : (CReal.lt c.alpha (lit 0) || CReal.gt c.alpha (lit 1) || CReal.lt c.beta (lit 0) || CReal.gt c.beta (lit 1)) = false)
    (m : Option (Vec R)) (g : Vec R) (q : Quat R) : fusAquaFeed junk f false c ⟨none, m, g⟩ q = ub := by
  unfold fusAquaFeed
  rw [if_neg (by simp [hc])]
  rfl

/-- C65. And a rejected first feed is not without effect: it has already adapted the gain to the reading. Here the attitude is zero, the feed
returns `-EINVAL`, but the gain is now zero, so the accelerometer is off for good. -/
theorem aqua_rejected_adapts (junk : ℕ → XR) (f : ℕ) {c : AquaR} (hc : c.Valid) (a g : V3) (m : Option V3) (h : |len a - 9.81| / 9.81 ≥ 0.2) :
    fusAquaFeed junk f false c.cfg (Reading.sens ⟨some a, m, g⟩) (quat 0) =
      ok (-EINVAL, Reading.sens ⟨some a, m, g⟩, AquaR.cfg { c with alpha := 0 }, quat 0, true) := by
  rw [aqua_feed_eq junk f hc]
  unfold fusAqua
  rw [if_neg (by simp [Reading.sens, badSize_sensor]), if_pos (by rw [quatIsZero_quat]; norm_num), ok_bind]
  simp only [AquaR.adapt, firstAlpha, if_pos h, Bool.false_eq_true, if_false]
  rfl

/-! ### C94: the corrections of Mahony and Madgwick -/

theorem turned_raw {r : ℍ[ℝ]} (h : 1e-6 ≤ ‖r‖) (v : V3) : pureQ (turned r v) = (‖r‖ ^ 2)⁻¹ • (r * pureQ v * star r) := by
  have hn : ‖r‖ ≠ 0 := (lt_of_lt_of_le (by norm_num) h).ne'
  have h1 : turned r v = turned (direction r) v := by unfold turned; rw [direction_direction]
  have h2 : direction r = ‖r‖⁻¹ • r := by unfold direction; rw [if_neg (not_lt.2 h)]
  rw [h1, turned_unit (norm_direction h), star_of_norm (norm_direction h), h2]
  rw [Quaternion.star_smul, smul_mul_assoc, smul_mul_assoc, mul_smul_comm, smul_smul, ← mul_inv, ← pow_two]

theorem away_key (v a : V3) (s : ℝ) : turned (1 + s • pureQ (a ⨯₃ v)) v ⬝ᵥ a =
      ((v ⬝ᵥ a) * (1 - s ^ 2 * ((a ⨯₃ v) ⬝ᵥ (a ⨯₃ v))) - 2 * s * ((a ⨯₃ v) ⬝ᵥ (a ⨯₃ v))) / (1 + s ^ 2 * ((a ⨯₃ v) ⬝ᵥ (a ⨯₃ v))) := by
  have hr : 1e-6 ≤ ‖1 + s • pureQ (a ⨯₃ v)‖ := le_trans (by norm_num) (one_le_norm_rate s _)
  have hN : ‖1 + s • pureQ (a ⨯₃ v)‖ ^ 2 = 1 + s ^ 2 * ((a ⨯₃ v) ⬝ᵥ (a ⨯₃ v)) := by
    rw [norm_sq_quat]
    simp [pureQ, dotProduct, Fin.sum_univ_three]
    ring
  have ht := turned_raw hr v
  have t0 := congrArg (·.imI) ht
  have t1 := congrArg (·.imJ) ht
  have t2 := congrArg (·.imK) ht
  simp only [pureQ, hq_imI, hq_imJ, hq_imK, imI_smul, imJ_smul, imK_smul, smul_eq_mul] at t0 t1 t2
  change _ = _ at t0
  rw [← hN]
  have : turned (1 + s • pureQ (a ⨯₃ v)) v ⬝ᵥ a = turned (1 + s • pureQ (a ⨯₃ v)) v 0 * a 0 + turned (1 + s • pureQ (a ⨯₃ v)) v 1 * a 1 +
    turned (1 + s • pureQ (a ⨯₃ v)) v 2 * a 2 := by simp [dotProduct, Fin.sum_univ_three]
  rw [this]
  unfold pureQ
  rw [t0, t1, t2]
  have fac : ∀ n x y z : ℝ, n * x * a 0 + n * y * a 1 + n * z * a 2 = n * (x * a 0 + y * a 1 + z * a 2) := by intros; ring
  rw [div_eq_inv_mul, fac]
  congr 1
  simp only [dotProduct, Fin.sum_univ_three, cross_apply, Matrix.cons_val_zero, Matrix.cons_val_one, Matrix.cons_val,
    Quaternion.re_mul, Quaternion.imI_mul, Quaternion.imJ_mul, Quaternion.imK_mul, hq_re, hq_imI, hq_imJ, hq_imK,
    Quaternion.re_star, Quaternion.imI_star, Quaternion.imJ_star, Quaternion.imK_star, Quaternion.re_add, Quaternion.imI_add,
    Quaternion.imJ_add, Quaternion.imK_add, Quaternion.re_one, Quaternion.imI_one, Quaternion.imJ_one, Quaternion.imK_one, re_smul, imI_smul,
    imJ_smul, imK_smul, smul_eq_mul]
  ring

theorem away_aux {v a : V3} (he : a ⨯₃ v ≠ 0) {s : ℝ} (hs : 0 < s) (hc : 0 < 1 + s * (v ⬝ᵥ a)) :
    turned (1 + s • pureQ (a ⨯₃ v)) v ⬝ᵥ a < v ⬝ᵥ a := by
  have hE : 0 < (a ⨯₃ v) ⬝ᵥ (a ⨯₃ v) := dotProduct_self_pos' he
  rw [away_key, div_lt_iff₀ (by positivity)]
  nlinarith [mul_pos (mul_pos hs hE) hc]

theorem turned_up_unit {q : ℍ[ℝ]} (hq : 1e-6 ≤ ‖q‖) : turned q up ⬝ᵥ turned q up = 1 := by
  have h1 : turned q up = turned (direction q) up := by unfold turned; rw [direction_direction]
  rw [h1, turned_dot (norm_direction hq)]
  simp [up]

theorem turned_step {r q : ℍ[ℝ]} (hr : 1e-6 ≤ ‖r‖) (hq : 1e-6 ≤ ‖q‖) (v : V3) :
    turned (direction (r * direction q)) v = turned r (turned q v) := by
  have h1 : ∀ x : ℍ[ℝ], turned x v = turned (direction x) v := by intro x; unfold turned; rw [direction_direction]
  have h2 : ∀ w, turned r w = turned (direction r) w := by intro w; unfold turned; rw [direction_direction]
  have hu := norm_direction hq
  have e : direction (r * direction q) = direction r * direction q := by
    unfold direction at hu ⊢
    rw [if_neg (not_lt.2 hq)] at hu ⊢
    rw [if_neg (not_lt.2 hr), norm_mul, hu, mul_one, if_neg (not_lt.2 hr), smul_mul_assoc]
  rw [h1 q, h2, e, turned_mul (norm_direction hr) hu]

theorem unit_dot (a : V3) : unitOf a ⬝ᵥ unitOf a = 1 := by
  simpa [dotProduct, pow_two] using unitOf_norm a

/-- C94. The claim fails for the Mahony filter, for every attitude and every reading that does not already agree (or is exactly opposite):
with the gyroscope at rest and any proportional gain `0 < kp < 2 freq`, the correction strictly lowers the cosine of the angle between the
predicted and the measured vertical, so it moves the attitude away from the measurement. -/
theorem mahn_moves_away (junk : ℕ → XR) {f : ℕ} (hf : 0 < f) (incl : Option ℝ) (kp limit : ℝ) (fb : V3) (hp : 0 < kp) (h2 : kp < 2 * f)
    (q : ℍ[ℝ]) (hq : 1e-6 ≤ ‖q‖) (a : V3) (ha : 1e-6 < len a) (he : unitOf a ⨯₃ turned q up ≠ 0) :
    ∃ s c q', fusMahnFeed junk f (optFin incl) (Reading.sens ⟨some a, none, 0⟩) (MahnSet.cfg ⟨kp, 0, limit, fb⟩) (quat q) = ok (0, s, c, quat q') ∧
      turned q' up ⬝ᵥ unitOf a < turned q up ⬝ᵥ unitOf a := by
  refine ⟨_, _, _, mahn_feed_correct junk hf incl ⟨kp, 0, limit, fb⟩ hp.le le_rfl q hq a none 0 ha, ?_⟩
  have hpos : (0 : ℝ) < f := by exact_mod_cast hf
  have hw : mahnRate f ⟨kp, 0, limit, fb⟩ (mahnErr incl q a none) 0 = kp • (unitOf a ⨯₃ turned q up) := by
    ext i
    simp [mahnRate, mahnErr]
  have hpq : ∀ (t : ℝ) (e : V3), pureQ (t • e) = t • pureQ e := by intro t e; ext <;> simp [pureQ]
  rw [hw]
  unfold eulerStep
  rw [hpq, smul_smul, turned_step (le_trans (by norm_num) (one_le_norm_rate _ _)) hq]
  have hs : 0 < 1 / (2 * (f : ℝ)) * kp := by positivity
  have hs1 : 1 / (2 * (f : ℝ)) * kp < 1 := by rw [one_div, inv_mul_lt_iff₀ (by positivity)]; linarith
  refine away_aux he hs ?_
  have hcs : -1 ≤ turned q up ⬝ᵥ unitOf a := by
    have h1 := turned_up_unit hq
    have h3 := unit_dot a
    have h4 : 0 ≤ (turned q up + unitOf a) ⬝ᵥ (turned q up + unitOf a) := by
      rw [dotProduct]
      exact Finset.sum_nonneg fun i _ => mul_self_nonneg _
    rw [add_dotProduct, dotProduct_add, dotProduct_add, h1, h3, dotProduct_comm (unitOf a)] at h4
    linarith
  nlinarith

example : ∃ s c q', fusMahnFeed (fun _ => XR.nan) 100 (optFin none) (Reading.sens ⟨some ![1, 0, 0], none, 0⟩) (MahnSet.cfg ⟨0.2, 0, 1, 0⟩) (quat 1) =
    ok (0, s, c, quat q') ∧ turned q' up ⬝ᵥ unitOf ![1, 0, 0] < turned 1 up ⬝ᵥ unitOf ![1, 0, 0] :=
  mahn_moves_away _ (by norm_num) none 0.2 1 0 (by norm_num) (by norm_num) 1 (by norm_num) _ (by rw [len_north]; norm_num) (by
    rw [turned_one, unitOf_of_len len_north]
    intro h
    have := congrFun h 1
    simp [cross_apply, up] at this)

/-- C94. The claim fails for the Madgwick filter: for the upright attitude, the gyroscope at rest, any gain and any tilted reading that is not
below the horizon, the correction moves the attitude away from the measurement. -/
theorem madg_moves_away (junk : ℕ → XR) {f : ℕ} (hf : 0 < f) (incl : Option ℝ) (beta : ℝ) (hb : 0 < beta) (a : V3) (ha : 1e-6 < len a)
    (h2 : 0 ≤ unitOf a 2) (he : unitOf a ⨯₃ up ≠ 0) :
    ∃ s q', fusMadgFeed junk f (optFin incl) (XR.fin beta) (Reading.sens ⟨some a, none, 0⟩) (quat 1) = ok (0, s, quat q') ∧
      turned q' up ⬝ᵥ unitOf a < turned 1 up ⬝ᵥ unitOf a := by
  refine ⟨_, _, madg_feed_correct junk hf incl beta hb.le 1 (by norm_num) a none 0 ha, ?_⟩
  have hpos : (0 : ℝ) < f := by exact_mod_cast hf
  have h1 : direction (1 : ℍ[ℝ]) = 1 := direction_of_norm_one (by simp)
  have he0 : eulerStep f 0 1 = 1 := by
    have : pureQ 0 = 0 := by ext <;> simp [pureQ]
    unfold eulerStep
    rw [this, smul_zero, add_zero, one_mul, h1, h1]
  have hg : jacG 1 *ᵥ (up - unitOf a) = ![0, -2 * unitOf a 1, 2 * unitOf a 0, 0] := by
    ext i
    fin_cases i <;> simp [jacG, up, Matrix.mulVec, dotProduct, Fin.sum_univ_three]
  have hx : unitOf a ⨯₃ up = ![unitOf a 1, -unitOf a 0, 0] := by
    simp [cross_apply, up]
  have hne : (![0, -2 * unitOf a 1, 2 * unitOf a 0, 0] : Fin 4 → ℝ) ≠ 0 := by
    intro h
    apply he
    have e1 := congrFun h 1
    have e2 := congrFun h 2
    simp at e1 e2
    rw [hx]
    ext i
    fin_cases i <;> simp [e1, e2]
  rw [h1]
  unfold madgStep madgDir
  simp only
  rw [turned_one, he0, hg]
  have hk : 0 < 1 / Real.sqrt ((![0, -2 * unitOf a 1, 2 * unitOf a 0, 0] : Fin 4 → ℝ) ⬝ᵥ ![0, -2 * unitOf a 1, 2 * unitOf a 0, 0]) :=
    one_div_pos.2 (Real.sqrt_pos.2 (dotProduct_self_pos' hne))
  have hu : unitOf (![0, -2 * unitOf a 1, 2 * unitOf a 0, 0] : Fin 4 → ℝ) = fun i => (![0, -2 * unitOf a 1, 2 * unitOf a 0, 0] : Fin 4 → ℝ) i *
      (1 / Real.sqrt ((![0, -2 * unitOf a 1, 2 * unitOf a 0, 0] : Fin 4 → ℝ) ⬝ᵥ ![0, -2 * unitOf a 1, 2 * unitOf a 0, 0])) :=
    if_neg hne
  rw [hu]
  generalize 1 / Real.sqrt ((![0, -2 * unitOf a 1, 2 * unitOf a 0, 0] : Fin 4 → ℝ) ⬝ᵥ ![0, -2 * unitOf a 1, 2 * unitOf a 0, 0]) = k at hk
  have hq' : (1 : ℍ[ℝ]) - (1 / (f : ℝ) * beta) • quat4 (fun i => (![0, -2 * unitOf a 1, 2 * unitOf a 0, 0] : Fin 4 → ℝ) i * k) =
      1 + (1 / (f : ℝ) * beta * (2 * k)) • pureQ (unitOf a ⨯₃ up) := by
    rw [hx]
    ext <;> simp [quat4, pureQ] <;> ring
  rw [hq']
  have hd : ∀ x : ℍ[ℝ], turned (direction x) up = turned x up := by intro x; unfold turned; rw [direction_direction]
  rw [hd]
  refine away_aux he (by positivity) ?_
  have : up ⬝ᵥ unitOf a = unitOf a 2 := by simp [up, dotProduct, Fin.sum_univ_three]
  rw [this]
  positivity

example : ∃ s q', fusMadgFeed (fun _ => XR.nan) 100 (optFin none) (XR.fin 0.1) (Reading.sens ⟨some ![1, 0, 0], none, 0⟩) (quat 1) =
    ok (0, s, quat q') ∧ turned q' up ⬝ᵥ unitOf ![1, 0, 0] < turned 1 up ⬝ᵥ unitOf ![1, 0, 0] :=
  madg_moves_away _ (by norm_num) none 0.1 (by norm_num) _ (by rw [len_north]; norm_num) (by rw [unitOf_of_len len_north]; simp) (by
    rw [unitOf_of_len len_north]
    intro h
    have := congrFun h 1
    simp [cross_apply, up] at this)

end Verif
