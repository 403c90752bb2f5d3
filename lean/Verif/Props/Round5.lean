import Verif.Props.Round2
import Verif.Model.Fusion
import Verif.Model.Kalman
import Mathlib.Logic.Relation

/-!
# Attitudes do not drift off the unit sphere in floating point (C130)

Every accepted call of a sensor fusion filter ends by normalising its quaternion. So rounding errors do not accumulate in its length, however long
the filter runs.
-/

namespace Verif

open Out

/-! ### The specification -/

/-- If the components of `q` are finite numbers, they are all zero, or their squares add up to one up to twelve roundings. -/
def UnitLength (F : Rounding) (q : Quat (FX F)) : Prop :=
  ∀ a b c d : ℝ, q = quatF F a b c d → (a = 0 ∧ b = 0 ∧ c = 0 ∧ d = 0) ∨ |a ^ 2 + b ^ 2 + c ^ 2 + d ^ 2 - 1| ≤ gam F.u 12

/-- `q'` is the quaternion after one call of some filter's feed function that was given `q`, with any sensor readings, configuration and frequency. -/
inductive Fed {R : Type} [CReal R] : Quat R → Quat R → Prop
  | mahony (junk : ℕ → R) (freq : ℕ) (incl : Option R) (s s' : Sens R) (c c' : MahnCfg R) (rc : Int) (q q' : Quat R) :
      fusMahnFeed junk freq incl s c q = ok (rc, s', c', q') → Fed q q'
  | madgwick (junk : ℕ → R) (freq : ℕ) (incl : Option R) (beta : R) (s s' : Sens R) (rc : Int) (q q' : Quat R) :
      fusMadgFeed junk freq incl beta s q = ok (rc, s', q') → Fed q q'
  | complementary (junk : ℕ → R) (freq : ℕ) (alpha : R) (s : Sens R) (rc : Int) (q q' : Quat R) :
      fusCompFeed junk freq alpha s q = ok (rc, q') → Fed q q'
  | saam (junk : ℕ → R) (s s' : Sens R) (rc : Int) (q q' : Quat R) :
      fusSaamFeed junk s q = ok (rc, s', q') → Fed q q'
  | aqua (junk : ℕ → R) (freq : ℕ) (init init' : Bool) (c c' : AquaCfg R) (s s' : Sens R) (rc : Int) (q q' : Quat R) :
      fusAquaFeed junk freq init c s q = ok (rc, s', c', q', init') → Fed q q'
  | kalman (junk : ℕ → R) (freq : ℕ) (incl : Option R) (s s' : Sens3 R) (c c' : KalmCfg R) (started started' : Bool) (rc : Int) (q q' : Quat R) :
      fusKalmFeed junk freq incl s c q started = ok (rc, s', c', q', started') → Fed q q'

/-! ### Every accepted call normalises -/

section
variable {R : Type} [CReal R]

/-- Whatever the run returns satisfies `P`. -/
def Out.Post {α : Type} (x : Out α) (P : α → Prop) : Prop := ∀ a, x = ok a → P a

theorem post_bind {α β : Type} {x : Out α} {f : α → Out β} {P : β → Prop} (h : ∀ a, (f a).Post P) : (x >>= f).Post P := by
  intro b hb
  cases x with
  | ok a => exact h a b hb
  | ub => exact absurd hb (by simp)

theorem post_bind' {α β : Type} {x : Out α} {f : α → Out β} {Q : α → Prop} {P : β → Prop} (hx : x.Post Q) (h : ∀ a, Q a → (f a).Post P) : (x >>= f).Post P := by
  intro b hb
  cases x with
  | ok a => exact h a (hx a rfl) b hb
  | ub => exact absurd hb (by simp)

theorem post_ok {α : Type} {a : α} {P : α → Prop} (h : P a) : (ok a).Post P := by
  intro b hb
  cases hb
  exact h

theorem post_pure {α : Type} {a : α} {P : α → Prop} (h : P a) : (pure a : Out α).Post P := post_ok h

/-- `q'` has been normalised. -/
def Unitised (q' : Quat R) : Prop := ∃ p, q' = quatToUnit p

theorem fusIntegrate_post (freq : ℕ) (g : Vec R) (q : Quat R) : (fusIntegrate freq g q).Post Unitised := by
  unfold fusIntegrate
  exact post_bind fun _ => post_pure ⟨_, rfl⟩

theorem fusMahonyImu_post (junk : ℕ → R) (freq : ℕ) (s : Sens R) (c : MahnCfg R) (q : Quat R) :
    (fusMahonyImu junk freq s c q).Post fun r => (r.1 = 0 ∧ Unitised r.2.2.2) ∨ (r.1 = -EINVAL ∧ r.2.2.2 = q) := by
  unfold fusMahonyImu
  split_ifs
  · exact post_ok (.inr ⟨rfl, rfl⟩)
  · exact post_ok (.inr ⟨rfl, rfl⟩)
  refine post_bind fun v => ?_
  cases v
  · simp only [Bool.false_eq_true, if_false]
    exact post_bind' (fusIntegrate_post _ _ _) fun q' h => post_pure (.inl ⟨rfl, h⟩)
  · simp only [if_true]
    refine post_bind fun _ => post_bind fun _ => post_bind fun x => ?_
    exact post_bind' (fusIntegrate_post _ _ _) fun q' h => post_pure (.inl ⟨rfl, h⟩)

theorem fusMahony_post (junk : ℕ → R) (freq : ℕ) (incl : Option R) (s : Sens R) (c : MahnCfg R) (q : Quat R) :
    (fusMahony junk freq incl s c q).Post fun r => (r.1 = 0 ∧ Unitised r.2.2.2) ∨ (r.1 = -EINVAL ∧ r.2.2.2 = q) := by
  unfold fusMahony
  split_ifs
  · exact post_ok (.inr ⟨rfl, rfl⟩)
  · exact post_ok (.inr ⟨rfl, rfl⟩)
  refine post_bind fun v => ?_
  cases v
  · simp only [Bool.false_eq_true, if_false]
    refine post_bind fun w => ?_
    cases w
    · simp only [Bool.false_eq_true, if_false]
      exact post_bind' (fusIntegrate_post _ _ _) fun q' h => post_pure (.inl ⟨rfl, h⟩)
    · simp only [if_true]
      refine post_bind fun _ => post_bind fun _ => post_bind fun _ => post_bind fun _ => post_bind fun _ => post_bind fun _ => post_bind fun _ => ?_
      exact post_bind' (fusIntegrate_post _ _ _) fun q' h => post_pure (.inl ⟨rfl, h⟩)
  · simp only [if_true]
    exact fusMahonyImu_post junk freq s c q

theorem madgUpdate_post (freq : ℕ) (beta : R) (g grad : Vec R) (q : Quat R) : (madgUpdate freq beta g grad q).Post Unitised := by
  unfold madgUpdate
  exact post_bind fun _ => post_bind fun _ => post_bind fun _ => post_bind fun _ => post_bind fun _ => post_pure ⟨_, rfl⟩

theorem fusMadgwickImu_post (junk : ℕ → R) (freq : ℕ) (beta : R) (s : Sens R) (q : Quat R) :
    (fusMadgwickImu junk freq beta s q).Post fun r => (r.1 = 0 ∧ Unitised r.2.2) ∨ (r.1 = -EINVAL ∧ r.2.2 = q) := by
  unfold fusMadgwickImu
  split_ifs
  · exact post_ok (.inr ⟨rfl, rfl⟩)
  · exact post_ok (.inr ⟨rfl, rfl⟩)
  refine post_bind fun _ => post_bind fun v => ?_
  cases v
  · simp only [Bool.false_eq_true, if_false]
    exact post_bind' (madgUpdate_post _ _ _ _ _) fun q' h => post_pure (.inl ⟨rfl, h⟩)
  · simp only [if_true]
    refine post_bind fun _ => post_bind fun _ => post_bind fun _ => post_bind fun _ => post_bind fun _ => ?_
    exact post_bind' (madgUpdate_post _ _ _ _ _) fun q' h => post_pure (.inl ⟨rfl, h⟩)

theorem fusMadgwick_post (junk : ℕ → R) (freq : ℕ) (incl : Option R) (beta : R) (s : Sens R) (q : Quat R) :
    (fusMadgwick junk freq incl beta s q).Post fun r => (r.1 = 0 ∧ Unitised r.2.2) ∨ (r.1 = -EINVAL ∧ r.2.2 = q) := by
  unfold fusMadgwick
  split_ifs
  · exact post_ok (.inr ⟨rfl, rfl⟩)
  · exact post_ok (.inr ⟨rfl, rfl⟩)
  refine post_bind fun v => ?_
  cases v
  · simp only [Bool.false_eq_true, if_false]
    refine post_bind fun _ => post_bind fun v => ?_
    cases v
    · simp only [Bool.false_eq_true, if_false]
      exact post_bind' (madgUpdate_post _ _ _ _ _) fun q' h => post_pure (.inl ⟨rfl, h⟩)
    · simp only [if_true]
      iterate 20 refine post_bind fun _ => ?_
      exact post_bind' (madgUpdate_post _ _ _ _ _) fun q' h => post_pure (.inl ⟨rfl, h⟩)
  · simp only [if_true]
    exact fusMadgwickImu_post junk freq beta s q

theorem fusComp_post (junk : ℕ → R) (freq : ℕ) (alpha : R) (s : Sens R) (q : Quat R) :
    (fusComp junk freq alpha s q).Post fun r => (r.1 = 0 ∧ Unitised r.2) ∨ (r.1 = -EINVAL ∧ r.2 = q) := by
  unfold fusComp
  split_ifs
  · exact post_ok (.inr ⟨rfl, rfl⟩)
  · exact post_ok (.inr ⟨rfl, rfl⟩)
  refine post_bind fun _ => post_bind fun v => ?_
  dsimp only
  split_ifs <;> refine post_bind fun w => ?_
  all_goals
    split
    · exact post_bind fun _ => post_pure (.inl ⟨rfl, _, rfl⟩)
    · exact post_pure (.inl ⟨rfl, _, rfl⟩)

theorem fusSaam_post (junk : ℕ → R) (s : Sens R) (q : Quat R) :
    (fusSaamFeed junk s q).Post fun r => (r.1 = 0 ∧ Unitised r.2.2) ∨ (r.1 = -EINVAL ∧ r.2.2 = q) := by
  unfold fusSaamFeed
  split
  · exact fun a h => absurd h (by simp)
  · split_ifs
    · exact post_ok (.inr ⟨rfl, rfl⟩)
    · split
      · exact fun a h => absurd h (by simp)
      · split_ifs
        · exact post_ok (.inr ⟨rfl, rfl⟩)
        · refine post_bind fun _ => ?_
          split_ifs
          · exact post_ok (.inr ⟨rfl, rfl⟩)
          · refine post_bind fun _ => ?_
            split_ifs
            · exact post_ok (.inr ⟨rfl, rfl⟩)
            · iterate 9 refine post_bind fun _ => ?_
              exact post_pure (.inl ⟨rfl, _, rfl⟩)

theorem fusAqua_post (junk : ℕ → R) (freq : ℕ) (c : AquaCfg R) (s : Sens R) (q : Quat R) :
    (fusAqua junk freq c s q).Post fun r => (r.1 = 0 ∧ Unitised r.2.2) ∨ (r.1 = -EINVAL ∧ r.2.2 = q) := by
  unfold fusAqua
  split_ifs
  · exact post_ok (.inr ⟨rfl, rfl⟩)
  · exact post_ok (.inr ⟨rfl, rfl⟩)
  refine post_bind fun _ => post_bind fun _ => post_bind fun v => ?_
  cases v
  · simp only [Bool.false_eq_true, if_false]
    exact post_pure (.inl ⟨rfl, _, rfl⟩)
  · simp only [if_true]
    refine post_bind fun _ => post_bind fun _ => post_bind fun w => ?_
    cases w
    · simp only [Bool.false_eq_true, if_false]
      exact post_pure (.inl ⟨rfl, _, rfl⟩)
    · simp only [if_true]
      exact post_bind fun _ => post_bind fun _ => post_pure (.inl ⟨rfl, _, rfl⟩)

theorem kalmCorrect_post (junk : ℕ → R) (varA varM : R) (z hx : Mtx R) (hd : List R) (P : Mtx R) (q : Quat R) :
    (kalmCorrect junk varA varM z hx hd P q).Post fun r => Unitised r.2 := by
  unfold kalmCorrect
  iterate 20 refine post_bind fun _ => ?_
  exact post_pure ⟨_, rfl⟩

theorem fusKalman_post (junk : ℕ → R) (freq : ℕ) (incl : Option R) (c : KalmCfg R) (s : Sens3 R) (q : Quat R) :
    (fusKalman junk freq incl c s q).Post fun r => (r.1 = 0 ∧ Unitised r.2.2.2) ∨ (r.1 = -EINVAL ∧ r.2.2.2 = q) := by
  unfold fusKalman
  split
  · split_ifs
    · exact post_ok (.inr ⟨rfl, rfl⟩)
    · iterate 5 refine post_bind fun _ => ?_
      exact post_bind' (kalmCorrect_post _ _ _ _ _ _ _ _) fun _ h => post_pure (.inl ⟨rfl, h⟩)
  · exact post_ok (.inr ⟨rfl, rfl⟩)

theorem kalmQuatInit_post (junk : ℕ → R) (a m : Option (Vec R)) (q : Quat R) :
    (kalmQuatInit junk a m q).Post fun r => Unitised r.2.1 ∨ r.2.1 = q := by
  unfold kalmQuatInit
  split
  · split_ifs
    · exact post_ok (.inr rfl)
    · iterate 10 refine post_bind fun _ => ?_
      exact post_pure (.inl ⟨_, rfl⟩)
  · exact post_ok (.inr rfl)

/-- C130. Every call of a feed function returns a normalised quaternion, or the one it was given. For every scalar type. -/
theorem fed_unitised {q q' : Quat R} (h : Fed q q') : (∃ p, q' = quatToUnit p) ∨ q' = q := by
  have key : ∀ {rc : Int} {a b : Quat R}, (rc = 0 ∧ Unitised a) ∨ (rc = -EINVAL ∧ a = b) → Unitised a ∨ a = b := by
    rintro rc a b (⟨-, h⟩ | ⟨-, h⟩)
    exacts [.inl h, .inr h]
  cases h with
  | mahony junk freq incl s s' c c' rc _ _ h =>
    refine (?_ : (fusMahnFeed junk freq incl s c q).Post fun r => Unitised r.2.2.2 ∨ r.2.2.2 = q) _ h
    unfold fusMahnFeed
    split_ifs
    · exact post_ok (.inr rfl)
    · exact post_bind' (fusMahony_post _ _ _ _ _ _) fun _ h => post_pure (key h)
  | madgwick junk freq incl beta s s' rc _ _ h =>
    refine (?_ : (fusMadgFeed junk freq incl beta s q).Post fun r => Unitised r.2.2 ∨ r.2.2 = q) _ h
    unfold fusMadgFeed
    split_ifs
    · exact post_ok (.inr rfl)
    · exact fun a ha => key (fusMadgwick_post _ _ _ _ _ _ a ha)
  | complementary junk freq alpha s rc _ _ h =>
    refine (?_ : (fusCompFeed junk freq alpha s q).Post fun r => Unitised r.2 ∨ r.2 = q) _ h
    unfold fusCompFeed
    split_ifs
    · exact post_ok (.inr rfl)
    · exact fun a ha => key (fusComp_post _ _ _ _ _ a ha)
  | saam junk s s' rc _ _ h => exact key (fusSaam_post junk s q _ h)
  | aqua junk freq init init' c c' s s' rc _ _ h =>
    refine (?_ : (fusAquaFeed junk freq init c s q).Post fun r => Unitised r.2.2.2.1 ∨ r.2.2.2.1 = q) _ h
    unfold fusAquaFeed
    split_ifs
    · exact post_ok (.inr rfl)
    · exact post_bind fun _ => post_bind' (fusAqua_post _ _ _ _ _) fun _ h => post_pure (key h)
    · exact post_bind fun _ => post_bind' (fusAqua_post _ _ _ _ _) fun _ h => post_pure (key h)
  | kalman junk freq incl s s' c c' started started' rc _ _ h =>
    refine (?_ : (fusKalmFeed junk freq incl s c q started).Post fun r => Unitised r.2.2.2.1 ∨ r.2.2.2.1 = q) _ h
    unfold fusKalmFeed
    split_ifs
    · exact post_ok (.inr rfl)
    · exact post_bind' (fusKalman_post _ _ _ _ _ _) fun _ h => post_pure (key h)
    · refine post_bind' (kalmQuatInit_post _ _ _ _) fun x hx => post_bind fun _ => post_bind' (fusKalman_post _ _ _ _ _ _) fun _ h => post_pure ?_
      rcases key h with h | h
      · exact .inl h
      · rw [h]
        exact hx

end

/-! ### Normalising with rounding -/

theorem FX.div_fin {F : Rounding} {x m : FX F} {a : ℝ} (h : x / m = FX.of F a) : ∃ b, x = FX.of F b := by
  obtain ⟨x⟩ := x
  obtain ⟨m⟩ := m
  have h' : XR.rnd F.rnd (x / m) = XR.fin a := congrArg FX.val h
  cases x with
  | fin b => exact ⟨b, rfl⟩
  | nan => exact absurd h' (by cases m <;> exact fun h => nomatch h)
  | pinf =>
    cases m with
    | fin b =>
      change XR.rnd F.rnd (if b < 0 then XR.ninf else XR.pinf) = _ at h'
      split_ifs at h' <;> exact nomatch h'
    | _ => exact nomatch h'
  | ninf =>
    cases m with
    | fin b =>
      change XR.rnd F.rnd (if b < 0 then XR.pinf else XR.ninf) = _ at h'
      split_ifs at h' <;> exact nomatch h'
    | _ => exact nomatch h'

/-- C130. Normalising any quaternion, even one with infinities and NaN, gives zero, a unit quaternion up to twelve roundings, or one that is not finite. -/
theorem quat_to_unit_on_sphere (F : Rounding) (p : Quat (FX F)) : UnitLength F (quatToUnit p) := by
  intro a b c d h
  by_cases hz : CReal.lt (CReal.abs (quatMagn p)) (lit 1e-6) = true
  · left
    unfold quatToUnit at h
    rw [if_pos hz] at h
    unfold quatF at h
    simp only [FX.lit_eq, Rat.cast_zero, F.rnd_zero, Quat.mk.injEq, FX.of_inj] at h
    obtain ⟨rfl, rfl, rfl, rfl⟩ := h
    simp
  · right
    unfold quatToUnit at h
    rw [if_neg hz] at h
    have h' := h
    unfold quatF at h
    rw [Quat.mk.injEq] at h
    obtain ⟨r1, e1⟩ := FX.div_fin h.1
    obtain ⟨r2, e2⟩ := FX.div_fin h.2.1
    obtain ⟨r3, e3⟩ := FX.div_fin h.2.2.1
    obtain ⟨r4, e4⟩ := FX.div_fin h.2.2.2
    obtain rfl : p = quatF F r1 r2 r3 r4 := by
      obtain ⟨_, _, _, _⟩ := p
      simp only at e1 e2 e3 e4
      rw [e1, e2, e3, e4]
      rfl
    obtain ⟨m, e, hm⟩ := quatMagn_F F r1 r2 r3 r4
    rw [e, FX.of_abs, FX.lit_eq, FX.of_lt, not_lt] at hz
    have hm1 : m ≠ 0 := by
      rintro rfl
      have : 0 < F.rnd ((1e-6 : ℚ) : ℝ) := F.rnd_pos (by norm_num)
      rw [abs_zero] at hz
      linarith
    have hq : 0 < qlen r1 r2 r3 r4 := (Real.sqrt_nonneg _).lt_of_ne' fun h0 => hm1 ((hm.ne_zero_iff F).2 h0)
    have hd : ∀ x, Near F.u 6 (F.rnd (x / m)) (x / qlen r1 r2 r3 r4) := fun x =>
      (Near.mono' F (((Near.refl F (k := 0) x).div F hm).rnd F) (by omega))
    rw [e] at h
    unfold quatF at h
    simp only [FX.of_div hm1, FX.of_inj] at h
    obtain ⟨rfl, rfl, rfl, rfl⟩ := h
    have hsq : ∀ x, Near F.u 12 (F.rnd (x / m) * F.rnd (x / m)) (x / qlen r1 r2 r3 r4 * (x / qlen r1 r2 r3 r4)) := fun x => (hd x).mul F (hd x)
    have hs := (((hsq r1).add_nonneg F (hsq r2) (mul_self_nonneg _) (mul_self_nonneg _)).add_nonneg F (hsq r3) (add_nonneg (mul_self_nonneg _) (mul_self_nonneg _))
      (mul_self_nonneg _)).add_nonneg F (hsq r4) (add_nonneg (add_nonneg (mul_self_nonneg _) (mul_self_nonneg _)) (mul_self_nonneg _)) (mul_self_nonneg _)
    have e1 : r1 / qlen r1 r2 r3 r4 * (r1 / qlen r1 r2 r3 r4) + r2 / qlen r1 r2 r3 r4 * (r2 / qlen r1 r2 r3 r4) + r3 / qlen r1 r2 r3 r4 * (r3 / qlen r1 r2 r3 r4) +
        r4 / qlen r1 r2 r3 r4 * (r4 / qlen r1 r2 r3 r4) = 1 := by
      have : qlen r1 r2 r3 r4 * qlen r1 r2 r3 r4 = r1 * r1 + r2 * r2 + r3 * r3 + r4 * r4 :=
        Real.mul_self_sqrt (add_nonneg (add_nonneg (add_nonneg (mul_self_nonneg _) (mul_self_nonneg _)) (mul_self_nonneg _)) (mul_self_nonneg _))
      field_simp
      rw [pow_two (qlen _ _ _ _), this]
      ring
    rw [e1] at hs
    have := hs.err F
    rw [abs_one, mul_one] at this
    simpa only [pow_two] using this

/-- C130. In every history of calls of the feed functions – any filters, readings, configurations and frequencies, in any order and number – the
attitude that started as zero or as a unit quaternion up to twelve roundings is so after every call, or is not finite. -/
theorem attitude_never_drifts (F : Rounding) {q q' : Quat (FX F)} (h : Relation.ReflTransGen Fed q q') (h0 : UnitLength F q) : UnitLength F q' := by
  induction h with
  | refl => exact h0
  | tail _ hf ih =>
    rcases fed_unitised hf with ⟨p, rfl⟩ | rfl
    · exact quat_to_unit_on_sphere F p
    · exact ih

/-- The identity is a valid start, and twelve roundings in double precision are less than 1e-14. -/
example (lib : Libm) : UnitLength (nearestRounding 52 lib) (quatF _ 1 0 0 0) ∧ gam (nearestRounding 52 lib).u 12 < 1e-14 := by
  constructor
  · intro a b c d h
    unfold quatF at h
    simp only [Quat.mk.injEq, FX.of_inj] at h
    obtain ⟨rfl, rfl, rfl, rfl⟩ := h
    right
    simpa using gam_nonneg (nearestRounding 52 lib).u_nonneg (nearestRounding 52 lib).u_lt 12
  · have hu : (nearestRounding 52 lib).u = (1 / 2) ^ 53 := rfl
    refine (gam_le (nearestRounding 52 lib).u_lt (k := 12) (by rw [hu]; norm_num)).trans_lt ?_
    rw [hu]
    norm_num

end Verif
