import Verif.Lemmas.DetRound
import Verif.Props.Round2
import Verif.Props.Quat2

/-!
# Rotating with quaternions in floating point (C161)

`gam u k` is the relative error of `k` roundings, `1 / (1 - u) ^ k - 1`: about `k u`.
-/

set_option linter.unusedSectionVars false

namespace Verif

open Out Quaternion

variable {F : Rounding}

/-- The `struct zsl_quat` of floating-point numbers holding the quaternion `q`. -/
def qF (F : Rounding) (q : ℍ[ℝ]) : Quat (FX F) := quatF F q.re q.imI q.imJ q.imK

theorem qlen_norm (q : ℍ[ℝ]) : qlen q.re q.imI q.imJ q.imK = ‖q‖ := by
  rw [norm_quat]
  unfold qlen
  congr 1

theorem Near.toErr {k : ℕ} {x y : ℝ} (h : Near F.u k x y) : Err F.u k x y |y| := ⟨le_rfl, h.err F⟩

/-- The product as computed. -/
noncomputable def fmul (F : Rounding) (a b : ℍ[ℝ]) : ℍ[ℝ] :=
  hq (F.rnd (F.rnd (F.rnd (F.rnd (a.re * b.re) - F.rnd (a.imI * b.imI)) - F.rnd (a.imJ * b.imJ)) - F.rnd (a.imK * b.imK)))
    (F.rnd (F.rnd (F.rnd (F.rnd (a.re * b.imI) + F.rnd (a.imI * b.re)) + F.rnd (a.imJ * b.imK)) - F.rnd (a.imK * b.imJ)))
    (F.rnd (F.rnd (F.rnd (F.rnd (a.re * b.imJ) - F.rnd (a.imI * b.imK)) + F.rnd (a.imJ * b.re)) + F.rnd (a.imK * b.imI)))
    (F.rnd (F.rnd (F.rnd (F.rnd (a.re * b.imK) + F.rnd (a.imI * b.imJ)) - F.rnd (a.imJ * b.imI)) + F.rnd (a.imK * b.re)))

theorem quatMult_F (a b : ℍ[ℝ]) : quatMult (qF F a) (qF F b) = qF F (fmul F a b) := rfl

/-- Every component of `x` approximates that of `y`, the sizes being the components of `p`. -/
structure ErrQ (F : Rounding) (k : ℕ) (x y p : ℍ[ℝ]) : Prop where
  re : Err F.u k x.re y.re p.re
  imI : Err F.u k x.imI y.imI p.imI
  imJ : Err F.u k x.imJ y.imJ p.imJ
  imK : Err F.u k x.imK y.imK p.imK

/-- The product with all signs positive. -/
def amul (a b : ℍ[ℝ]) : ℍ[ℝ] :=
  hq (a.re * b.re + a.imI * b.imI + a.imJ * b.imJ + a.imK * b.imK) (a.re * b.imI + a.imI * b.re + a.imJ * b.imK + a.imK * b.imJ)
    (a.re * b.imJ + a.imI * b.imK + a.imJ * b.re + a.imK * b.imI) (a.re * b.imK + a.imI * b.imJ + a.imJ * b.imI + a.imK * b.re)

/-- The quaternion of absolute values. -/
def qabs (a : ℍ[ℝ]) : ℍ[ℝ] := hq |a.re| |a.imI| |a.imJ| |a.imK|

theorem norm_qabs (a : ℍ[ℝ]) : ‖qabs a‖ = ‖a‖ := by
  rw [norm_quat, norm_quat]
  simp [qabs]

theorem ErrQ.exact (x : ℍ[ℝ]) : ErrQ F 0 x x (qabs x) := ⟨Err.exact F _, Err.exact F _, Err.exact F _, Err.exact F _⟩

theorem ErrQ.mul {k l : ℕ} {x y p x' y' p' : ℍ[ℝ]} (h : ErrQ F k x y p) (h' : ErrQ F l x' y' p') :
    ErrQ F (k + l + 4) (fmul F x x') (y * y') (amul p p') := by
  have up : ∀ {a b c : ℝ}, Err F.u (k + l + 1) a b c → Err F.u (k + l + 1 + 1) a b c := fun h => h.mono (by omega)
  have up2 : ∀ {a b c : ℝ}, Err F.u (k + l + 1) a b c → Err F.u (k + l + 1 + 1 + 1) a b c := fun h => h.mono (by omega)
  refine ⟨?_, ?_, ?_, ?_⟩
  · rw [re_mul]
    exact ((((h.re.mul h'.re).rnd.sub (h.imI.mul h'.imI).rnd).rnd.sub (up (h.imJ.mul h'.imJ).rnd)).rnd.sub (up2 (h.imK.mul h'.imK).rnd)).rnd
  · rw [imI_mul]
    exact ((((h.re.mul h'.imI).rnd.add (h.imI.mul h'.re).rnd).rnd.add (up (h.imJ.mul h'.imK).rnd)).rnd.sub (up2 (h.imK.mul h'.imJ).rnd)).rnd
  · rw [imJ_mul]
    exact ((((h.re.mul h'.imJ).rnd.sub (h.imI.mul h'.imK).rnd).rnd.add (up (h.imJ.mul h'.re).rnd)).rnd.add (up2 (h.imK.mul h'.imI).rnd)).rnd
  · rw [imK_mul]
    exact ((((h.re.mul h'.imK).rnd.add (h.imI.mul h'.imJ).rnd).rnd.sub (up (h.imJ.mul h'.imI).rnd)).rnd.add (up2 (h.imK.mul h'.re).rnd)).rnd

theorem ErrQ.mono {k l : ℕ} {x y p : ℍ[ℝ]} (h : ErrQ F k x y p) (hkl : k ≤ l) : ErrQ F l x y p :=
  ⟨h.re.mono hkl, h.imI.mono hkl, h.imJ.mono hkl, h.imK.mono hkl⟩

/-- From sizes to lengths. -/
theorem ErrQ.norm {k : ℕ} {x y p : ℍ[ℝ]} (h : ErrQ F k x y p) : ‖x - y‖ ≤ gam F.u k * ‖p‖ := by
  have hg := gam_nonneg F.u_nonneg F.u_lt k
  refine abs_le_of_sq_le_sq' ?_ (mul_nonneg hg (norm_nonneg _)) |>.2
  rw [mul_pow, norm_sq_quat, norm_sq_quat]
  have sq : ∀ {a b c : ℝ}, Err F.u k a b c → (a - b) ^ 2 ≤ gam F.u k ^ 2 * c ^ 2 := by
    intro a b c e
    rw [← mul_pow, ← sq_abs]
    exact pow_le_pow_left₀ (abs_nonneg _) e.2 2
  have h1 := sq h.re
  have h2 := sq h.imI
  have h3 := sq h.imJ
  have h4 := sq h.imK
  simp only [re_sub, imI_sub, imJ_sub, imK_sub]
  linarith

theorem cs4 (a b c d x y z w : ℝ) :
    (a * x + b * y + c * z + d * w) ^ 2 ≤ (a ^ 2 + b ^ 2 + c ^ 2 + d ^ 2) * (x ^ 2 + y ^ 2 + z ^ 2 + w ^ 2) := by
  nlinarith [sq_nonneg (a * y - b * x), sq_nonneg (a * z - c * x), sq_nonneg (a * w - d * x), sq_nonneg (b * z - c * y), sq_nonneg (b * w - d * y),
    sq_nonneg (c * w - d * z)]

theorem norm_amul (a b : ℍ[ℝ]) : ‖amul a b‖ ≤ 2 * (‖a‖ * ‖b‖) := by
  refine abs_le_of_sq_le_sq' ?_ (by positivity) |>.2
  rw [mul_pow, mul_pow, norm_sq_quat, norm_sq_quat, norm_sq_quat]
  simp only [amul, hq_re, hq_imI, hq_imJ, hq_imK]
  have h1 := cs4 a.re a.imI a.imJ a.imK b.re b.imI b.imJ b.imK
  have h2 := cs4 a.re a.imI a.imJ a.imK b.imI b.re b.imK b.imJ
  have h3 := cs4 a.re a.imI a.imJ a.imK b.imJ b.imK b.re b.imI
  have h4 := cs4 a.re a.imI a.imJ a.imK b.imK b.imJ b.imI b.re
  nlinarith [h1, h2, h3, h4]

/-- The length of the product with all signs positive of three factors: no worse than four times the lengths. -/
theorem norm_amul3 (a b c : ℍ[ℝ]) : ‖amul (amul a b) c‖ ≤ 4 * (‖a‖ * ‖b‖ * ‖c‖) := by
  have h1 := norm_amul (amul a b) c
  have h2 := mul_le_mul_of_nonneg_right (norm_amul a b) (norm_nonneg c)
  linarith

/-- C161. `zsl_quat_mult` with rounding: the product is wrong by at most twice four roundings of the product of the lengths. -/
theorem quat_mult_norm_rounding (F : Rounding) (a b : ℍ[ℝ]) :
    ∃ c : ℍ[ℝ], quatMult (qF F a) (qF F b) = qF F c ∧ ‖c - a * b‖ ≤ 2 * gam F.u 4 * (‖a‖ * ‖b‖) := by
  refine ⟨_, quatMult_F a b, ?_⟩
  have h := ((ErrQ.exact (F := F) a).mul (ErrQ.exact b)).norm
  have h2 := norm_amul (qabs a) (qabs b)
  rw [norm_qabs, norm_qabs] at h2
  have hg := gam_nonneg F.u_nonneg F.u_lt 4
  have := mul_le_mul_of_nonneg_left h2 hg
  simp only [zero_add] at h
  linarith

/-- A length that is not tiny passes the check of `zsl_quat_to_unit` and `zsl_quat_inv`. -/
theorem magn_passes (hu : F.u ≤ 1 / 16) {m l : ℝ} (hm : Near F.u 5 m l) (h : 2e-6 ≤ l) : F.rnd (1e-6 : ℝ) ≤ m := by
  obtain ⟨s, hs, es⟩ := F.near (1e-6 : ℝ)
  obtain ⟨t, ht, et⟩ := hm
  have hst := (hs.inv F.u_nonneg F.u_lt).mul' F ht
  have hsp := hs.pos F.u_nonneg F.u_lt
  have h6 : (1 / 2 : ℝ) ≤ s⁻¹ * t := (gam_small hu).trans hst.1
  have h7 : s / 2 ≤ t := by
    have := mul_le_mul_of_nonneg_left h6 hsp.le
    rw [mul_inv_cancel_left₀ hsp.ne'] at this
    linarith
  rw [es, et]
  nlinarith

/-- The inverse as computed: every component is right up to twelve roundings. -/
theorem quatInv_F (hu : F.u ≤ 1 / 16) (q : ℍ[ℝ]) (h : 2e-6 ≤ ‖q‖) :
    ∃ c : ℍ[ℝ], quatInv (qF F q) = qF F c ∧ Near F.u 12 c.re (q.re / ‖q‖ ^ 2) ∧ Near F.u 12 c.imI (-(q.imI / ‖q‖ ^ 2)) ∧
      Near F.u 12 c.imJ (-(q.imJ / ‖q‖ ^ 2)) ∧ Near F.u 12 c.imK (-(q.imK / ‖q‖ ^ 2)) := by
  obtain ⟨m, e, hm⟩ := quatMagn_F F q.re q.imI q.imJ q.imK
  rw [qlen_norm] at hm
  have hq : 0 < ‖q‖ := lt_of_lt_of_le (by norm_num) h
  have hm0 := hm.pos F hq
  have hbig := magn_passes hu hm h
  have hmm : Near F.u 11 (F.rnd (m * m)) (‖q‖ ^ 2) := by
    rw [pow_two]
    exact (hm.mul F hm).rnd F
  have hmm0 := hmm.pos F (by positivity)
  have hd : ∀ x, Near F.u 12 (F.rnd (x / F.rnd (m * m))) (x / ‖q‖ ^ 2) := fun x =>
    Near.mono' F (((Near.refl F (k := 0) x).div F hmm).rnd F) (by omega)
  have hn : ∀ x, Near F.u 12 (F.rnd (x / -F.rnd (m * m))) (-(x / ‖q‖ ^ 2)) := fun x => by
    have := hd (-x)
    rwa [neg_div, neg_div, ← div_neg] at this
  refine ⟨Verif.hq (F.rnd (q.re / F.rnd (m * m))) (F.rnd (q.imI / -F.rnd (m * m))) (F.rnd (q.imJ / -F.rnd (m * m))) (F.rnd (q.imK / -F.rnd (m * m))), ?_,
    hd _, hn _, hn _, hn _⟩
  unfold quatInv qF
  rw [e]
  dsimp only
  rw [FX.of_abs, FX.lit_eq, if_neg (by simp only [FX.of_lt, not_lt, abs_of_pos hm0]; exact_mod_cast hbig)]
  unfold quatF
  dsimp only
  have hne : -F.rnd (m * m) ≠ 0 := neg_ne_zero.2 hmm0.ne'
  rw [FX.of_mul, FX.of_neg, FX.of_div hmm0.ne', FX.of_div hne, FX.of_div hne, FX.of_div hne]
  rfl

theorem inv_parts (q : ℍ[ℝ]) : (q⁻¹).re = q.re / ‖q‖ ^ 2 ∧ (q⁻¹).imI = -(q.imI / ‖q‖ ^ 2) ∧ (q⁻¹).imJ = -(q.imJ / ‖q‖ ^ 2) ∧
    (q⁻¹).imK = -(q.imK / ‖q‖ ^ 2) := by
  have h : q⁻¹ = (‖q‖ ^ 2)⁻¹ • star q := by
    rw [Quaternion.instInv]
    simp only [Quaternion.normSq_eq_norm_mul_self, pow_two]
  rw [h]
  refine ⟨?_, ?_, ?_, ?_⟩ <;> simp [div_eq_inv_mul]

theorem ErrQ.of_near {k : ℕ} {x y : ℍ[ℝ]} (h1 : Near F.u k x.re y.re) (h2 : Near F.u k x.imI y.imI) (h3 : Near F.u k x.imJ y.imJ)
    (h4 : Near F.u k x.imK y.imK) : ErrQ F k x y (qabs y) := ⟨h1.toErr, h2.toErr, h3.toErr, h4.toErr⟩

theorem quatInv_err (hu : F.u ≤ 1 / 16) (q : ℍ[ℝ]) (h : 2e-6 ≤ ‖q‖) :
    ∃ c : ℍ[ℝ], quatInv (qF F q) = qF F c ∧ ErrQ F 12 c q⁻¹ (qabs q⁻¹) := by
  obtain ⟨c, e, h1, h2, h3, h4⟩ := quatInv_F hu q h
  obtain ⟨p1, p2, p3, p4⟩ := inv_parts q
  exact ⟨c, e, .of_near (p1 ▸ h1) (p2 ▸ h2) (p3 ▸ h3) (p4 ▸ h4)⟩

/-- C161. `zsl_quat_inv` with rounding: of a quaternion that is not tiny it is the inverse up to twelve roundings. -/
theorem quat_inv_rounding (F : Rounding) (hu : F.u ≤ 1 / 16) (q : ℍ[ℝ]) (h : 2e-6 ≤ ‖q‖) :
    ∃ c : ℍ[ℝ], quatInv (qF F q) = qF F c ∧ ‖c - q⁻¹‖ ≤ gam F.u 12 * ‖q‖⁻¹ := by
  obtain ⟨c, e, hc⟩ := quatInv_err hu q h
  refine ⟨c, e, ?_⟩
  have := hc.norm
  rwa [norm_qabs, norm_inv] at this

/-- C161. `zsl_quat_diff` with rounding: `a⁻¹ b` up to twice sixteen roundings of its length. -/
theorem quat_diff_rounding (F : Rounding) (hu : F.u ≤ 1 / 16) (a b : ℍ[ℝ]) (h : 2e-6 ≤ ‖a‖) :
    ∃ c : ℍ[ℝ], quatDiff (qF F a) (qF F b) = qF F c ∧ ‖c - a⁻¹ * b‖ ≤ 2 * gam F.u 16 * ‖a⁻¹ * b‖ := by
  obtain ⟨c, e, hc⟩ := quatInv_err hu a h
  refine ⟨fmul F c b, by rw [quatDiff, e, quatMult_F], ?_⟩
  have h1 := (hc.mul (ErrQ.exact b)).norm
  have h2 := norm_amul (qabs a⁻¹) (qabs b)
  rw [norm_qabs, norm_qabs, ← norm_mul] at h2
  have := mul_le_mul_of_nonneg_left h2 (gam_nonneg F.u_nonneg F.u_lt 16)
  norm_num at h1
  linarith

theorem quatToUnit_err (hu : F.u ≤ 1 / 16) (q : ℍ[ℝ]) (h : 2e-6 ≤ ‖q‖) :
    ∃ c : ℍ[ℝ], quatToUnit (qF F q) = qF F c ∧ (Near F.u 6 c.re (‖q‖⁻¹ • q).re ∧ Near F.u 6 c.imI (‖q‖⁻¹ • q).imI ∧ Near F.u 6 c.imJ (‖q‖⁻¹ • q).imJ ∧
      Near F.u 6 c.imK (‖q‖⁻¹ • q).imK) ∧ Near F.u 12 (‖c‖ ^ 2) 1 := by
  obtain ⟨a, b, c, d, e, h1, h2, h3, h4, h5⟩ := quat_to_unit_rounding F hu q.re q.imI q.imJ q.imK (by rwa [qlen_norm])
  rw [qlen_norm] at h1 h2 h3 h4
  refine ⟨Verif.hq a b c d, e, ⟨?_, ?_, ?_, ?_⟩, ?_⟩
  · rw [re_smul, smul_eq_mul, ← div_eq_inv_mul]; exact h1
  · rw [imI_smul, smul_eq_mul, ← div_eq_inv_mul]; exact h2
  · rw [imJ_smul, smul_eq_mul, ← div_eq_inv_mul]; exact h3
  · rw [imK_smul, smul_eq_mul, ← div_eq_inv_mul]; exact h4
  · rw [norm_sq_quat]
    simpa [pow_two] using h5

/-- C161. `zsl_quat_rot` with rounding: rotating `b` by a quaternion `a` that is not tiny gives `u b u*`, with `u` the unit quaternion along `a`, wrong by
at most four times forty-four roundings of the length of `b`; so the length of `b` is kept up to as much. -/
theorem quat_rot_rounding (F : Rounding) (hu : F.u ≤ 1 / 16) (a b : ℍ[ℝ]) (ha : 2e-6 ≤ ‖a‖) (hb : |b.re| ≤ F.rnd 1e-6) (qr : Quat (FX F)) :
    ∃ c : ℍ[ℝ], quatRot (qF F a) (qF F b) qr = (0, qF F c) ∧
      ‖c - (‖a‖⁻¹ • a) * b * star (‖a‖⁻¹ • a)‖ ≤ 4 * gam F.u 44 * ‖b‖ ∧ |‖c‖ - ‖b‖| ≤ 4 * gam F.u 44 * ‖b‖ := by
  have ha0 : 0 < ‖a‖ := lt_of_lt_of_le (by norm_num) ha
  obtain ⟨q, eq, ⟨n1, n2, n3, n4⟩, hq⟩ := quatToUnit_err hu a ha
  set u := ‖a‖⁻¹ • a with hudef
  have hun : ‖u‖ = 1 := by
    rw [hudef, norm_smul, norm_inv, norm_norm, inv_mul_cancel₀ ha0.ne']
  have hq2 : 2e-6 ≤ ‖q‖ := by
    obtain ⟨t, ht, et⟩ := hq
    have : (15 / 16 : ℝ) ^ 12 ≤ ‖q‖ ^ 2 := by
      rw [et, one_mul]
      exact (pow_le_pow_left₀ (by norm_num) (by linarith) 12).trans ht.1
    refine abs_le_of_sq_le_sq' ((le_trans (by norm_num) this)) (norm_nonneg _) |>.2
  obtain ⟨i, ei, i1, i2, i3, i4⟩ := quatInv_F hu q hq2
  have hu' : Err F.u 0 1 1 1 := by simpa using Err.exact F 1
  have hin : ErrQ F 30 i (star u) (qabs (star u)) := by
    have hd : ∀ {x y : ℝ}, Near F.u 6 x y → Near F.u 18 (x / ‖q‖ ^ 2) y := fun h => by
      have := h.div F hq
      rwa [div_one] at this
    have tr : ∀ {x y z : ℝ}, Near F.u 12 x y → Near F.u 18 y z → Near F.u 30 x z := by
      rintro x y z ⟨s, hs, e1⟩ ⟨t, ht, e2⟩
      exact ⟨t * s, ht.mul' F hs, by rw [e1, e2]; ring⟩
    have ng : ∀ {x y : ℝ}, Near F.u 18 x y → Near F.u 18 (-x) (-y) := by
      rintro x y ⟨s, hs, e1⟩
      exact ⟨s, hs, by rw [e1]; ring⟩
    refine .of_near ?_ ?_ ?_ ?_
    · rw [re_star]; exact tr i1 (hd n1)
    · rw [imI_star]; exact tr i2 (ng (hd n2))
    · rw [imJ_star]; exact tr i3 (ng (hd n3))
    · rw [imK_star]; exact tr i4 (ng (hd n4))
  have hp := ((ErrQ.of_near n1 n2 n3 n4).mul (ErrQ.exact b)).mul hin
  have hnorm := hp.norm
  have h3 := norm_amul3 (qabs u) (qabs b) (qabs (star u))
  rw [norm_qabs, norm_qabs, norm_qabs, norm_star, hun, one_mul, mul_one] at h3
  have hg := mul_le_mul_of_nonneg_left h3 (gam_nonneg F.u_nonneg F.u_lt 44)
  norm_num only at hnorm
  have hfin : ‖fmul F (fmul F q b) i - u * b * star u‖ ≤ 4 * gam F.u 44 * ‖b‖ := by linarith
  refine ⟨_, ?_, hfin, ?_⟩
  · unfold quatRot
    rw [if_neg (by
      change ¬(CReal.gt (CReal.abs (FX.of F b.re)) (lit 1e-6) = true)
      rw [FX.of_abs, FX.lit_eq, CReal.gt, FX.of_lt, not_lt]
      exact_mod_cast hb)]
    dsimp only
    rw [eq, ei, quatMult_F, quatMult_F]
  · have hb' : ‖u * b * star u‖ = ‖b‖ := by rw [norm_mul, norm_mul, norm_star, hun, one_mul, mul_one]
    have := abs_norm_sub_norm_le (fmul F (fmul F q b) i) (u * b * star u)
    rw [hb'] at this
    exact this.trans hfin

/-- Non-vacuity: a rotation about an oblique axis, in double precision. -/
example (lib : Libm) : (nearestRounding 52 lib).u ≤ 1 / 16 ∧ 2e-6 ≤ ‖Verif.hq 1 2 3 4‖ ∧ |(Verif.hq 0 5 6 7).re| ≤ (nearestRounding 52 lib).rnd 1e-6 := by
  refine ⟨?_, ?_, ?_⟩
  · change ((1 : ℝ) / 2) ^ 53 ≤ 1 / 16
    norm_num
  · rw [norm_quat]
    refine Real.le_sqrt_of_sq_le ?_
    norm_num
  · rw [hq_re, abs_zero]
    exact (nearestRounding 52 lib).rnd_nonneg (by norm_num)

/-! ## The rotation matrix -/

/-- The matrix as computed. -/
noncomputable def frot (F : Rounding) (q : ℍ[ℝ]) : Matrix (Fin 3) (Fin 3) ℝ :=
  !![F.rnd (1 - F.rnd (F.rnd 2 * F.rnd (F.rnd (q.imJ * q.imJ) + F.rnd (q.imK * q.imK)))),
     F.rnd (F.rnd 2 * F.rnd (F.rnd (q.imI * q.imJ) - F.rnd (q.imK * q.re))),
     F.rnd (F.rnd 2 * F.rnd (F.rnd (q.imI * q.imK) + F.rnd (q.imJ * q.re)));
     F.rnd (F.rnd 2 * F.rnd (F.rnd (q.imI * q.imJ) + F.rnd (q.imK * q.re))),
     F.rnd (1 - F.rnd (F.rnd 2 * F.rnd (F.rnd (q.imI * q.imI) + F.rnd (q.imK * q.imK)))),
     F.rnd (F.rnd 2 * F.rnd (F.rnd (q.imJ * q.imK) - F.rnd (q.imI * q.re)));
     F.rnd (F.rnd 2 * F.rnd (F.rnd (q.imI * q.imK) - F.rnd (q.imJ * q.re))),
     F.rnd (F.rnd 2 * F.rnd (F.rnd (q.imJ * q.imK) + F.rnd (q.imI * q.re))),
     F.rnd (1 - F.rnd (F.rnd 2 * F.rnd (F.rnd (q.imI * q.imI) + F.rnd (q.imJ * q.imJ))))]

theorem quatToRotMtx_F (q : ℍ[ℝ]) (B : Matrix (Fin 3) (Fin 3) ℝ) (t : List (FX F)) :
    quatToRotMtx (qF F q) (matF F B t) = ok (0, matF F (frot F q) t) := by
  unfold quatToRotMtx
  rw [if_neg (by simp [matF, mtxOf])]
  have l1 : (lit 1 : FX F) = FX.of F 1 := by rw [FX.lit_eq, Rat.cast_one, F.one]
  have l2 : (lit 2 : FX F) = FX.of F (F.rnd 2) := by rw [FX.lit_eq]; norm_num
  simp only [matF, mtxOf, mtxSet, wr, qF, quatF, l1, l2, FX.of_mul, FX.of_sub, FX.of_add]
  simp [List.ofFn_succ, Fin.divNat, Fin.modNat, frot, Matrix.map]

/-- C161. `zsl_quat_to_rot_mtx` with rounding: for a unit quaternion every entry is that of a rotation matrix, which turns vectors as the quaternion
does, up to five roundings of three. -/
theorem quat_to_rot_mtx_rounding (F : Rounding) (q : ℍ[ℝ]) (h : ‖q‖ = 1) (B : Matrix (Fin 3) (Fin 3) ℝ) (t : List (FX F)) :
    ∃ M A : Matrix (Fin 3) (Fin 3) ℝ, quatToRotMtx (qF F q) (matF F B t) = ok (0, matF F M t) ∧ (∀ i j, |M i j - A i j| ≤ 3 * gam F.u 5) ∧
      A.transpose * A = 1 ∧ A.det = 1 ∧ ∀ p : ℍ[ℝ], p.re = 0 →
        A.mulVec ![p.imI, p.imJ, p.imK] = ![(q * p * star q).imI, (q * p * star q).imJ, (q * p * star q).imK] := by
  refine ⟨frot F q, rotOf q, quatToRotMtx_F q B t, ?_, rotOf_orth h, rotOf_det h, fun p hp => rotOf_mulVec h p hp⟩
  have hs := unit_eq h
  have h2 : Err F.u 1 (F.rnd 2) 2 2 := by simpa using (Err.exact F 2).rnd
  have h1 : Err F.u 0 1 1 1 := by simpa using Err.exact F 1
  have hg := gam_nonneg F.u_nonneg F.u_lt 5
  have off : ∀ {a b c d : ℝ} {e s : ℝ}, Err F.u 1 e s (|a| * |b| + |c| * |d|) → a ^ 2 + b ^ 2 + c ^ 2 + d ^ 2 ≤ 1 →
      |F.rnd (F.rnd 2 * F.rnd e) - 2 * s| ≤ 3 * gam F.u 5 := by
    intro a b c d e s he hle
    have hh := ((h2.mul he.rnd).rnd.mono (show 1 + (1 + 1) + 1 ≤ 5 by omega)).2
    refine hh.trans ?_
    have : 2 * (|a| * |b| + |c| * |d|) ≤ 3 := by
      nlinarith [sq_nonneg (|a| - |b|), sq_nonneg (|c| - |d|), sq_abs a, sq_abs b, sq_abs c, sq_abs d]
    nlinarith
  have dg : ∀ {a b : ℝ}, a ^ 2 + b ^ 2 ≤ 1 →
      |F.rnd (1 - F.rnd (F.rnd 2 * F.rnd (F.rnd (a * a) + F.rnd (b * b)))) - (1 - 2 * (a * a + b * b))| ≤ 3 * gam F.u 5 := by
    intro a b hle
    have hp := (((Err.exact F a).mul (Err.exact F a)).rnd.add ((Err.exact F b).mul (Err.exact F b)).rnd).rnd
    have hh := ((h1.mono (show 0 ≤ 4 by omega)).sub (h2.mul hp).rnd).rnd.2
    refine hh.trans ?_
    have : 1 + 2 * (|a| * |a| + |b| * |b|) ≤ 3 := by
      nlinarith [sq_abs a, sq_abs b]
    change gam F.u 5 * _ ≤ _
    nlinarith
  have pr : ∀ a b : ℝ, Err F.u 1 (F.rnd (a * b)) (a * b) (|a| * |b|) := fun a b => ((Err.exact F a).mul (Err.exact F b)).rnd
  intro i j
  fin_cases i <;> fin_cases j
  · exact dg (by nlinarith [sq_nonneg q.re, sq_nonneg q.imI])
  · exact off ((pr _ _).sub (pr _ _)) (by nlinarith)
  · exact off ((pr _ _).add (pr _ _)) (by nlinarith)
  · exact off ((pr _ _).add (pr _ _)) (by nlinarith)
  · exact dg (by nlinarith [sq_nonneg q.re, sq_nonneg q.imJ])
  · exact off ((pr _ _).sub (pr _ _)) (by nlinarith)
  · exact off ((pr _ _).sub (pr _ _)) (by nlinarith)
  · exact off ((pr _ _).add (pr _ _)) (by nlinarith)
  · exact dg (by nlinarith [sq_nonneg q.re, sq_nonneg q.imK])

/-- Non-vacuity: a unit quaternion that is not a number. -/
example : ‖Verif.hq (3 / 5) 0 (4 / 5) 0‖ = 1 := norm_hq_345

end Verif
