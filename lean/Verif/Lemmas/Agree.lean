import Verif.Spec.Agree
import Verif.Model.Physics

/-!
# Rules for relative errors

`Ap F k a b`: `a` is a number and `b` the same up to `k` roundings. `Apx` is the same, given that `a` is a number. They are classes, so that the bound of a
formula is found by instance search.
-/

namespace Verif

variable {F : Rounding} {k l : ℕ}

/-- `a` is a number and `b` is the same up to `k` roundings. -/
class Ap (F : Rounding) (k : outParam ℕ) (a : XR) (b : FX F) : Prop where
  out : ∃ y x : ℝ, a = XR.fin y ∧ b = FX.of F x ∧ Near F.u k x y

/-- If `a` is a number, `b` is the same up to `k` roundings. -/
class Apx (F : Rounding) (k : outParam ℕ) (a : XR) (b : FX F) : Prop where
  out : ∀ y : ℝ, a = XR.fin y → ∃ x : ℝ, b = FX.of F x ∧ Near F.u k x y

instance apVar (r : ℝ) : Ap F 0 (XR.fin r) (FX.of F r) := ⟨_, _, rfl, rfl, Near.refl F r⟩

instance apLit (q : ℚ) : Ap F 1 (lit q) (lit q) := ⟨_, _, rfl, rfl, F.near _⟩

instance apOfNat (n : ℕ) : Ap F 1 (CReal.ofNat n) (CReal.ofNat n) := ⟨_, _, XR.ofNat_eq n, FX.ofNat_eq n, F.near _⟩

instance apNeg {a : XR} {b : FX F} [h : Ap F k a b] : Ap F k (-a) (-b) := by
  obtain ⟨y, x, rfl, rfl, hn⟩ := h.out
  exact ⟨_, _, rfl, rfl, hn.neg F⟩

instance apMul {a a' : XR} {b b' : FX F} [h : Ap F k a b] [h' : Ap F l a' b'] : Ap F (k + l + 1) (a * a') (b * b') := by
  obtain ⟨y, x, rfl, rfl, hn⟩ := h.out
  obtain ⟨y', x', rfl, rfl, hn'⟩ := h'.out
  exact ⟨_, _, rfl, rfl, (hn.mul F hn').rnd F⟩

instance apSub (r s : ℝ) : Ap F 1 (XR.fin r - XR.fin s) (FX.of F r - FX.of F s) := ⟨_, _, XR.fin_sub r s, FX.of_sub r s, F.near _⟩

instance apAdd (r s : ℝ) : Ap F 1 (XR.fin r + XR.fin s) (FX.of F r + FX.of F s) := ⟨_, _, rfl, rfl, F.near _⟩

instance apToApx {a : XR} {b : FX F} [h : Ap F k a b] : Apx F k a b := by
  obtain ⟨y, x, rfl, rfl, hn⟩ := h.out
  refine ⟨fun y' e => ⟨x, rfl, ?_⟩⟩
  cases e
  exact hn

theorem mul_fin {a b : XR} {r : ℝ} (h : a * b = XR.fin r) : ∃ x y, a = XR.fin x ∧ b = XR.fin y := by
  have hi : ∀ s : ℝ, XR.infOf s ≠ XR.fin r := by
    intro s
    unfold XR.infOf
    split_ifs <;> exact fun h => nomatch h
  cases a with
  | fin x => cases b with
    | fin y => exact ⟨x, y, rfl, rfl⟩
    | nan => exact nomatch h
    | pinf => exact absurd h (hi _)
    | ninf => exact absurd h (hi _)
  | nan => exact absurd h (by cases b <;> exact fun h => nomatch h)
  | pinf => cases b with
    | fin y => exact absurd h (hi _)
    | _ => exact nomatch h
  | ninf => cases b with
    | fin y => exact absurd h (hi _)
    | _ => exact nomatch h

theorem div_fin {a b : XR} {r : ℝ} (h : a / b = XR.fin r) : ∃ x, a = XR.fin x := by
  cases a with
  | fin x => exact ⟨x, rfl⟩
  | nan => exact absurd h (by cases b <;> exact fun h => nomatch h)
  | pinf => cases b with
    | fin y =>
      change (if y < 0 then XR.ninf else XR.pinf) = _ at h
      split_ifs at h
    | _ => exact nomatch h
  | ninf => cases b with
    | fin y =>
      change (if y < 0 then XR.pinf else XR.ninf) = _ at h
      split_ifs at h
    | _ => exact nomatch h

instance apxNeg {a : XR} {b : FX F} [h : Apx F k a b] : Apx F k (-a) (-b) := by
  refine ⟨fun y e => ?_⟩
  cases a with
  | fin r =>
    obtain ⟨x, rfl, hx⟩ := h.out r rfl
    cases e
    exact ⟨-x, rfl, hx.neg F⟩
  | _ => exact nomatch e

instance (priority := low) apxMul {a a' : XR} {b b' : FX F} [h : Apx F k a b] [h' : Apx F l a' b'] : Apx F (k + l + 1) (a * a') (b * b') := by
  refine ⟨fun y e => ?_⟩
  obtain ⟨r, s, rfl, rfl⟩ := mul_fin e
  obtain ⟨x, rfl, hx⟩ := h.out r rfl
  obtain ⟨x', rfl, hx'⟩ := h'.out s rfl
  cases e
  exact ⟨_, rfl, (hx.mul F hx').rnd F⟩

instance apxDiv {a a' : XR} {b b' : FX F} [h : Apx F k a b] [h' : Ap F l a' b'] : Apx F (k + l + 1) (a / a') (b / b') := by
  refine ⟨fun y e => ?_⟩
  obtain ⟨r, rfl⟩ := div_fin e
  obtain ⟨x, rfl, hx⟩ := h.out r rfl
  obtain ⟨y', x', rfl, rfl, hx'⟩ := h'.out
  by_cases h0 : y' = 0
  · subst h0
    rw [XR.fin_div_zero] at e
    unfold XR.infOf at e
    split_ifs at e
  · rw [XR.fin_div h0] at e
    cases e
    exact ⟨_, FX.of_div (hx'.ne_zero F h0), (hx.div F hx').rnd F⟩

instance apxSqrt {a : XR} {b : FX F} [h : Apx F k a b] : Apx F (k + 1) (CReal.sqrt a) (CReal.sqrt b) := by
  refine ⟨fun y e => ?_⟩
  cases a with
  | fin r =>
    obtain ⟨x, rfl, hx⟩ := h.out r rfl
    by_cases h0 : 0 ≤ r
    · rw [XR.fin_sqrt h0] at e
      cases e
      exact ⟨_, FX.of_sqrt (hx.nonneg F h0), (hx.sqrt F h0).rnd F⟩
    · refine absurd e ?_
      change (if r < 0 then XR.nan else XR.fin (Real.sqrt r)) ≠ _
      rw [if_pos (not_le.1 h0)]
      exact fun h => nomatch h
  | _ => exact nomatch e

instance apAbs {a : XR} {b : FX F} [h : Ap F k a b] : Ap F k (CReal.abs a) (CReal.abs b) := by
  obtain ⟨y, x, rfl, rfl, t, ht, rfl⟩ := h.out
  refine ⟨|y|, |y * t|, rfl, rfl, t, ht, ?_⟩
  rw [abs_mul, abs_of_pos (ht.pos F.u_nonneg F.u_lt)]

/-! ### Errors relative to a magnitude -/

/-- The absolute value of a number. -/
def mag : XR → ℝ
  | .fin r => |r|
  | _ => 0

/-- If `a` is a number, it is at most `m` in absolute value and `b` differs from it by at most `k` roundings of `m`. -/
class Abx (F : Rounding) (k : outParam ℕ) (m : outParam ℝ) (a : XR) (b : FX F) : Prop where
  out : ∀ y : ℝ, a = XR.fin y → ∃ x : ℝ, b = FX.of F x ∧ |x - y| ≤ gam F.u k * m ∧ |y| ≤ m

instance (priority := high) abxAp {a : XR} {b : FX F} [h : Ap F k a b] : Abx F k (mag a) a b := by
  obtain ⟨y, x, rfl, rfl, hn⟩ := h.out
  refine ⟨fun y' e => ⟨x, rfl, ?_⟩⟩
  cases e
  exact ⟨hn.err F, le_rfl⟩

theorem gam_mono (F : Rounding) (h : k ≤ l) : gam F.u k ≤ gam F.u l := by
  unfold gam
  have := inv_anti₀ (one_sub_pow_pos F.u_lt l) (pow_le_pow_of_le_one (by linarith [F.u_lt]) (by linarith [F.u_nonneg]) h)
  linarith

/-- Errors multiply. -/
theorem one_add_gam (F : Rounding) : (1 + gam F.u k) * (1 + gam F.u l) = 1 + gam F.u (k + l) := by
  unfold gam
  rw [pow_add, mul_inv]
  ring

theorem abs_rnd_le (F : Rounding) {x y m : ℝ} (h : |x - y| ≤ gam F.u k * m) (hy : |y| ≤ m) : |F.rnd x - y| ≤ gam F.u (k + 1) * m := by
  have h1 : |F.rnd x - x| ≤ F.u * |x| := F.err x
  have hx : |x| ≤ (1 + gam F.u k) * m := by
    have := abs_add_le (x - y) y
    rw [sub_add_cancel] at this
    linarith
  have hm : 0 ≤ m := (abs_nonneg y).trans hy
  have hu : F.u ≤ gam F.u 1 := by
    unfold gam
    rw [pow_one]
    have : 0 < 1 - F.u := by linarith [F.u_lt]
    have e : (1 - F.u) * (1 - F.u)⁻¹ = 1 := mul_inv_cancel₀ this.ne'
    have := F.u_nonneg
    have : 1 ≤ (1 - F.u)⁻¹ := (one_le_inv₀ (by linarith [F.u_lt])).2 (by linarith)
    nlinarith
  have e : gam F.u (k + 1) = gam F.u 1 * (1 + gam F.u k) + gam F.u k := by
    have := one_add_gam (k := k) (l := 1) F
    linear_combination -this
  have t : |F.rnd x - y| ≤ |F.rnd x - x| + |x - y| := abs_sub_le _ _ _
  have : F.u * |x| ≤ gam F.u 1 * ((1 + gam F.u k) * m) := mul_le_mul hu hx (abs_nonneg _) (F.u_nonneg.trans hu)
  rw [e]
  linarith

theorem add_fin {a b : XR} {r : ℝ} (h : a + b = XR.fin r) : ∃ x y, a = XR.fin x ∧ b = XR.fin y := by
  cases a <;> cases b <;> first | exact ⟨_, _, rfl, rfl⟩ | exact nomatch h

theorem sub_fin {a b : XR} {r : ℝ} (h : a - b = XR.fin r) : ∃ x y, a = XR.fin x ∧ b = XR.fin y := by
  cases a <;> cases b <;> first | exact ⟨_, _, rfl, rfl⟩ | exact nomatch h

variable {m m' : ℝ}

instance (priority := low) abxAdd {a a' : XR} {b b' : FX F} [h : Abx F k m a b] [h' : Abx F l m' a' b'] :
    Abx F (max k l + 1) (m + m') (a + a') (b + b') := by
  refine ⟨fun y e => ?_⟩
  obtain ⟨r, s, rfl, rfl⟩ := add_fin e
  obtain ⟨x, rfl, hx, hr⟩ := h.out r rfl
  obtain ⟨x', rfl, hx', hs⟩ := h'.out s rfl
  cases e
  have hm : 0 ≤ m := (abs_nonneg r).trans hr
  have hm' : 0 ≤ m' := (abs_nonneg s).trans hs
  refine ⟨_, rfl, abs_rnd_le F ?_ ((abs_add_le r s).trans (add_le_add hr hs)), (abs_add_le r s).trans (add_le_add hr hs)⟩
  have h1 := mul_le_mul_of_nonneg_right (gam_mono F (le_max_left k l)) hm
  have h2 := mul_le_mul_of_nonneg_right (gam_mono F (le_max_right k l)) hm'
  have := abs_add_le (x - r) (x' - s)
  rw [show x - r + (x' - s) = x + x' - (r + s) by ring] at this
  linarith

instance (priority := low) abxSub {a a' : XR} {b b' : FX F} [h : Abx F k m a b] [h' : Abx F l m' a' b'] :
    Abx F (max k l + 1) (m + m') (a - a') (b - b') := by
  refine ⟨fun y e => ?_⟩
  obtain ⟨r, s, rfl, rfl⟩ := sub_fin e
  obtain ⟨x, rfl, hx, hr⟩ := h.out r rfl
  obtain ⟨x', rfl, hx', hs⟩ := h'.out s rfl
  rw [XR.fin_sub] at e
  cases e
  have hm : 0 ≤ m := (abs_nonneg r).trans hr
  have hm' : 0 ≤ m' := (abs_nonneg s).trans hs
  have hrs : |r - s| ≤ m + m' := (abs_sub r s).trans (add_le_add hr hs)
  refine ⟨_, FX.of_sub x x', abs_rnd_le F ?_ hrs, hrs⟩
  have h1 := mul_le_mul_of_nonneg_right (gam_mono F (le_max_left k l)) hm
  have h2 := mul_le_mul_of_nonneg_right (gam_mono F (le_max_right k l)) hm'
  have := abs_sub (x - r) (x' - s)
  rw [show x - r - (x' - s) = x - x' - (r - s) by ring] at this
  linarith

instance (priority := low) abxMul {a a' : XR} {b b' : FX F} [h : Abx F k m a b] [h' : Abx F l m' a' b'] :
    Abx F (k + l + 1) (m * m') (a * a') (b * b') := by
  refine ⟨fun y e => ?_⟩
  obtain ⟨r, s, rfl, rfl⟩ := mul_fin e
  obtain ⟨x, rfl, hx, hr⟩ := h.out r rfl
  obtain ⟨x', rfl, hx', hs⟩ := h'.out s rfl
  cases e
  have hm : 0 ≤ m := (abs_nonneg r).trans hr
  have hm' : 0 ≤ m' := (abs_nonneg s).trans hs
  have hrs : |r * s| ≤ m * m' := by
    rw [abs_mul]
    exact mul_le_mul hr hs (abs_nonneg _) hm
  refine ⟨_, rfl, abs_rnd_le F ?_ hrs, hrs⟩
  have g := gam_nonneg F.u_nonneg F.u_lt
  have e : x * x' - r * s = (x - r) * (x' - s) + (x - r) * s + r * (x' - s) := by ring
  have e2 : gam F.u (k + l) = gam F.u k * gam F.u l + gam F.u k + gam F.u l := by
    have := one_add_gam (k := k) (l := l) F
    linear_combination -this
  have t1 : |(x - r) * (x' - s)| ≤ gam F.u k * m * (gam F.u l * m') := by
    rw [abs_mul]
    exact mul_le_mul hx hx' (abs_nonneg _) (mul_nonneg (g k) hm)
  have t2 : |(x - r) * s| ≤ gam F.u k * m * m' := by
    rw [abs_mul]
    exact mul_le_mul hx hs (abs_nonneg _) (mul_nonneg (g k) hm)
  have t3 : |r * (x' - s)| ≤ m * (gam F.u l * m') := by
    rw [abs_mul]
    exact mul_le_mul hr hx' (abs_nonneg _) hm
  have := (abs_add_le ((x - r) * (x' - s) + (x - r) * s) (r * (x' - s))).trans (add_le_add_left (abs_add_le _ _) _)
  rw [e, e2]
  linarith

instance (priority := low) abxDiv {a a' : XR} {b b' : FX F} [h : Abx F k m a b] [h' : Ap F l a' b'] :
    Abx F (k + l + 1) (m / mag a') (a / a') (b / b') := by
  refine ⟨fun y e => ?_⟩
  obtain ⟨r, rfl⟩ := div_fin e
  obtain ⟨x, rfl, hx, hr⟩ := h.out r rfl
  obtain ⟨y', x', rfl, rfl, hx'⟩ := h'.out
  have h0 : y' ≠ 0 := by
    rintro rfl
    rw [XR.fin_div_zero] at e
    unfold XR.infOf at e
    split_ifs at e
  rw [XR.fin_div h0] at e
  cases e
  have hm : 0 ≤ m := (abs_nonneg r).trans hr
  have hp : 0 < |y'| := abs_pos.2 h0
  have hrs : |r / y'| ≤ m / |y'| := by
    rw [abs_div]
    exact div_le_div_of_nonneg_right hr hp.le
  have g := gam_nonneg F.u_nonneg F.u_lt
  refine ⟨_, FX.of_div (hx'.ne_zero F h0), abs_rnd_le F ?_ hrs, hrs⟩
  obtain ⟨t, ht, rfl⟩ := hx'
  have htp := ht.pos F.u_nonneg F.u_lt
  have hi := (ht.inv F.u_nonneg F.u_lt).abs_sub_one F.u_nonneg F.u_lt
  have hi2 : t⁻¹ ≤ 1 + gam F.u l := by linarith [(abs_le.1 hi).2]
  have e : x / (y' * t) - r / y' = ((x - r) * t⁻¹ + r * (t⁻¹ - 1)) / y' := by
    field_simp
    ring
  have e2 : gam F.u (k + l) = gam F.u k * (1 + gam F.u l) + gam F.u l := by
    have := one_add_gam (k := k) (l := l) F
    linear_combination -this
  have t1 : |(x - r) * t⁻¹| ≤ gam F.u k * m * (1 + gam F.u l) := by
    rw [abs_mul, abs_of_pos (inv_pos.2 htp)]
    exact mul_le_mul hx hi2 (inv_pos.2 htp).le (mul_nonneg (g k) hm)
  have t2 : |r * (t⁻¹ - 1)| ≤ m * gam F.u l := by
    rw [abs_mul]
    exact mul_le_mul hr hi (abs_nonneg _) hm
  change _ ≤ _ * (m / |y'|)
  rw [e, abs_div, e2, ← mul_div_assoc]
  refine div_le_div_of_nonneg_right ?_ hp.le
  refine (abs_add_le _ _).trans ?_
  linarith

/-! ### Comparisons with zero -/

section cmp
variable {a : XR} {b : FX F}

theorem Ap.lt_zero (h : Ap F k a b) : CReal.lt b (lit 0) = CReal.lt a (lit 0) := by
  obtain ⟨y, x, rfl, rfl, t, ht, rfl⟩ := h.out
  have := ht.pos F.u_nonneg F.u_lt
  rw [Bool.eq_iff_iff, FX.lit_eq, Rat.cast_zero, F.rnd_zero, FX.of_lt, XR.lit_eq, Rat.cast_zero, XR.fin_lt]
  exact ⟨fun h => by by_contra hy; exact absurd h (not_lt.2 (mul_nonneg (not_lt.1 hy) this.le)), fun h => mul_neg_of_neg_of_pos h this⟩

theorem Ap.le_zero (h : Ap F k a b) : CReal.le b (lit 0) = CReal.le a (lit 0) := by
  obtain ⟨y, x, rfl, rfl, t, ht, rfl⟩ := h.out
  have := ht.pos F.u_nonneg F.u_lt
  rw [Bool.eq_iff_iff, FX.lit_eq, Rat.cast_zero, F.rnd_zero, FX.of_le, XR.lit_eq, Rat.cast_zero, XR.fin_le]
  exact ⟨fun h => by by_contra hy; exact absurd h (not_le.2 (mul_pos (not_le.1 hy) this)), fun h => mul_nonpos_of_nonpos_of_nonneg h this.le⟩

theorem Ap.eq_zero (h : Ap F k a b) : CReal.eq b (lit 0) = CReal.eq a (lit 0) := by
  obtain ⟨y, x, rfl, rfl, t, ht, rfl⟩ := h.out
  have := ht.pos F.u_nonneg F.u_lt
  rw [Bool.eq_iff_iff, FX.lit_eq, Rat.cast_zero, F.rnd_zero, FX.of_eq, XR.lit_eq, Rat.cast_zero, XR.fin_eq]
  exact mul_eq_zero_iff_right this.ne'

end cmp

theorem of_lt_zero (a : ℝ) : CReal.lt (FX.of F a) (lit 0) = CReal.lt (XR.fin a) (lit 0) := (apVar a).lt_zero
theorem of_le_zero (a : ℝ) : CReal.le (FX.of F a) (lit 0) = CReal.le (XR.fin a) (lit 0) := (apVar a).le_zero
theorem of_eq_zero (a : ℝ) : CReal.eq (FX.of F a) (lit 0) = CReal.eq (XR.fin a) (lit 0) := (apVar a).eq_zero
theorem of_gt_one (a : ℝ) : CReal.gt (FX.of F a) (lit 1) = CReal.gt (XR.fin a) (lit 1) := by
  rw [Bool.eq_iff_iff, FX.lit_eq, Rat.cast_one, F.one, FX.of_gt, XR.lit_eq, Rat.cast_one]
  exact (XR.fin_lt 1 a).symm
theorem of_lt_of (a b : ℝ) : CReal.lt (FX.of F a) (FX.of F b) = CReal.lt (XR.fin a) (XR.fin b) := rfl
theorem of_gt_of (a b : ℝ) : CReal.gt (FX.of F a) (FX.of F b) = CReal.gt (XR.fin a) (XR.fin b) := rfl

/-! ### Results -/

theorem Agrees.ok {K : ℕ} {a : XR} {b : FX F} [h : Apx F k a b] (hK : k ≤ K := by norm_num) : Agrees F K (0, a) (0, b) := by
  refine ⟨rfl, fun r e => ?_⟩
  obtain ⟨x, rfl, hx⟩ := h.out r (congrArg Prod.snd e)
  exact ⟨x, rfl, (hx.mono' F hK).err F⟩

theorem AgreesUpTo.ok {K : ℕ} {M m : ℝ} {a : XR} {b : FX F} [h : Abx F k m a b] (hm : m ≤ M) (hK : k ≤ K := by norm_num) :
    AgreesUpTo F K M (0, a) (0, b) := by
  refine ⟨rfl, fun r e => ?_⟩
  obtain ⟨x, rfl, hx, hr⟩ := h.out r (congrArg Prod.snd e)
  exact ⟨x, rfl, hx.trans (mul_le_mul (gam_mono F hK) hm ((abs_nonneg r).trans hr) (gam_nonneg F.u_nonneg F.u_lt K))⟩

theorem AgreesUpTo.rej {K : ℕ} {M : ℝ} {a : XR} {b : FX F} : AgreesUpTo F K M (-EINVAL, a) (-EINVAL, b) := by
  refine ⟨rfl, fun r e => ?_⟩
  exact absurd (show (-EINVAL : Int) = 0 from congrArg Prod.fst e) (by unfold EINVAL; norm_num)

theorem Agrees.rej {K : ℕ} {a : XR} {b : FX F} : Agrees F K (-EINVAL, a) (-EINVAL, b) := by
  refine ⟨rfl, fun r e => ?_⟩
  exact absurd (show (-EINVAL : Int) = 0 from congrArg Prod.fst e) (by unfold EINVAL; norm_num)

end Verif
