import Verif.Props.Color4
import Verif.Lemmas.PolyBound
import Mathlib.Analysis.Real.Pi.Bounds

/-!
# The two methods of Ohno agree on the distance from the locus (C169)
-/

namespace Verif

open Out PB

/-- The coefficients by which the two published polynomials for the distance of the locus from (0.292, 0.24) differ. -/
def lbbDiff : List ℚ := padd (ohno2011Data.getD 0 []) (psm (-1) ohno2014Data)

theorem poly6_pev {k : List ℚ} (hk : k.length = 7) (a : ℝ) : poly6 k a = pev k a := by
  obtain ⟨k0, k1, k2, k3, k4, k5, k6, rfl⟩ : ∃ k0 k1 k2 k3 k4 k5 k6, k = [k0, k1, k2, k3, k4, k5, k6] := by
    match k, hk with
    | [k0, k1, k2, k3, k4, k5, k6], _ => exact ⟨_, _, _, _, _, _, _, rfl⟩
  simp only [poly6, Finset.sum_range_succ, Finset.sum_range_zero, pev, List.getD_cons_zero, List.getD_cons_succ]
  ring

theorem lbb_diff_pieces : ∀ i : ℕ, i < 248 → pabs (1 / 400) (pshift (1640 / 1000 + (2 * (i : ℚ) + 1) / 400) lbbDiff) ≤ 12 / 1000000 := by decide +kernel

theorem lbb_diff {a : ℝ} (h1 : 1.64 ≤ a) (h2 : a ≤ 2.88) :
    |poly6 (ohno2011Data.getD 0 []) a - poly6 ohno2014Data a| ≤ 0.000012 := by
  rw [poly6_pev (by decide +kernel), poly6_pev (by decide +kernel)]
  have e : pev (ohno2011Data.getD 0 []) a - pev ohno2014Data a = pev lbbDiff a := by
    rw [lbbDiff, pev_add, pev_sm]
    push_cast
    ring
  rw [e]
  obtain ⟨i, hi⟩ : ∃ i : ℕ, i = ⌊(a - 1.64) * 200⌋₊ := ⟨_, rfl⟩
  have hn : (0 : ℝ) ≤ (a - 1.64) * 200 := by linarith
  have f1 := Nat.floor_le hn
  have f2 := Nat.lt_floor_add_one ((a - 1.64) * 200)
  rw [← hi] at f1 f2
  -- the last point belongs to the last piece
  obtain ⟨j, hj, g1, g2⟩ : ∃ j : ℕ, j < 248 ∧ (j : ℝ) ≤ (a - 1.64) * 200 ∧ (a - 1.64) * 200 ≤ j + 1 := by
    by_cases hi2 : i < 248
    · exact ⟨i, hi2, f1, f2.le⟩
    · refine ⟨247, by norm_num, ?_, ?_⟩
      · have : ((248 : ℕ) : ℝ) ≤ i := by exact_mod_cast not_lt.1 hi2
        push_cast at this ⊢
        linarith
      · push_cast
        linarith
  have hp := lbb_diff_pieces j hj
  have hs := pev_shift (1640 / 1000 + (2 * j + 1) / 400) lbbDiff (a - ((1640 / 1000 + (2 * j + 1) / 400 : ℚ) : ℝ))
  rw [add_sub_cancel] at hs
  rw [← hs]
  refine (abs_pev_le (h := 1 / 400) _ ?_).trans ?_
  · push_cast
    rw [abs_le]
    constructor <;> linarith
  · have : ((pabs (1 / 400) (pshift (1640 / 1000 + (2 * j + 1) / 400) lbbDiff) : ℚ) : ℝ) ≤ ((12 / 1000000 : ℚ) : ℝ) := by exact_mod_cast hp
    refine this.trans ?_
    norm_num

/-- A small change of the angle changes the polynomial little. -/
theorem lbb_lipschitz {a b : ℝ} (ha : |a| ≤ 3) (hb : |b| ≤ 3) :
    |poly6 (ohno2011Data.getD 0 []) a - poly6 (ohno2011Data.getD 0 []) b| ≤ 1000 * |a - b| := by
  rw [poly6_pev (by decide +kernel), poly6_pev (by decide +kernel)]
  have hbd : ∀ x ∈ Set.Icc (-3 : ℝ) 3, ‖pev (pder (ohno2011Data.getD 0 [])) x‖ ≤ 1000 := by
    intro x hx
    have h := abs_pev_le (h := 3) (pder (ohno2011Data.getD 0 [])) (v := x) (by push_cast; exact abs_le.2 hx)
    have h2 : ((pabs 3 (pder (ohno2011Data.getD 0 [])) : ℚ) : ℝ) ≤ ((1000 : ℚ) : ℝ) := by exact_mod_cast (by decide +kernel)
    rw [Real.norm_eq_abs]
    refine h.trans (h2.trans ?_)
    norm_num
  have := (convex_Icc (-3 : ℝ) 3).norm_image_sub_le_of_norm_hasDerivWithin_le
    (fun x _ => (pev_deriv (ohno2011Data.getD 0 []) x).hasDerivWithinAt) hbd (abs_le.1 hb) (abs_le.1 ha)
  simpa only [Real.norm_eq_abs] using this

/-- Left of the focus the two ways of computing the angle agree, up to the constant used for π. -/
theorem focusAngle_arccos {u v : ℝ} (hu : u < 0.292) (hv : 0.24 < v) :
    focusAngle u v = Real.arccos ((u - 0.292) / focusDist u v) - (Real.pi - 3.14159265358979323846) := by
  obtain ⟨x, hx⟩ : ∃ x, x = u - 0.292 := ⟨_, rfl⟩
  obtain ⟨y, hy⟩ : ∃ y, y = v - 0.24 := ⟨_, rfl⟩
  have hx0 : x < 0 := by linarith
  have hy0 : 0 < y := by linarith
  have ht : Real.arctan (y / x) < 0 := by
    rw [← Real.arctan_zero]
    exact Real.arctan_strictMono (div_neg_of_pos_of_neg hy0 hx0)
  have hlow := Real.neg_pi_div_two_lt_arctan (y / x)
  have hd : focusDist u v = Real.sqrt (x ^ 2 + y ^ 2) := by rw [focusDist, hx, hy]
  have hdp : 0 < Real.sqrt (x ^ 2 + y ^ 2) := Real.sqrt_pos.2 (by positivity)
  have hc : Real.cos (Real.arctan (y / x) + Real.pi) = x / Real.sqrt (x ^ 2 + y ^ 2) := by
    rw [Real.cos_add_pi, Real.cos_arctan]
    have hxn : x ≠ 0 := hx0.ne
    have e : Real.sqrt (1 + (y / x) ^ 2) = Real.sqrt (x ^ 2 + y ^ 2) / (-x) := by
      rw [show 1 + (y / x) ^ 2 = (x ^ 2 + y ^ 2) / (-x) ^ 2 by rw [neg_sq, div_pow]; field_simp, Real.sqrt_div (by positivity), Real.sqrt_sq (by linarith)]
    rw [e]
    field_simp
  rw [hd, ← hx, ← hc, Real.arccos_cos (by linarith [Real.pi_pos]) (by linarith)]
  unfold focusAngle
  simp only
  rw [← hx, ← hy, if_neg (not_le.2 ht)]
  ring

/-- C169. For every chromaticity left of and above (0.292, 0.24), at an angle from 1.65 to 2.88 about that point and with an inner nearest row of the table, for which both methods
give numbers, the methods of Ohno (2011) and Ohno (2014) report the same distance from the locus up to 0.000013. -/
theorem ohno_duv_agree (c : Uv60 ℝ) (o o' : Cct XR) (hu : c.uInv = false) (hv : c.vInv = false) (m : ℕ) (hm : NearestRow m c.u c.v) (hd : locusD2 m c.u c.v < 1)
    (h1 : 1 ≤ m) (h2 : m ≤ 302) (hul : c.u < 0.292) (hvl : 0.24 < c.v) (a1 : 1.65 ≤ Real.arccos ((c.u - 0.292) / focusDist c.u c.v))
    (a2 : Real.arccos ((c.u - 0.292) / focusDist c.u c.v) ≤ 2.88)
    (hp : (if focusAngle c.u c.v < 2.54 then poly6 (ohno2011Data.getD 1 []) (focusAngle c.u c.v) else poly6 (ohno2011Data.getD 2 []) (focusAngle c.u c.v)) ≠ 0)
    (hT : 0 < ohnoRaw c.u c.v) :
    ∃ r s : Cct ℝ, clrUv60Cct .ohno2011 c.emb o = ok (0, r.emb) ∧ clrUv60Cct .ohno2014 c.emb o' = ok (0, s.emb) ∧ |r.duv - s.duv| ≤ 0.000013 := by
  have p1 := Real.pi_gt_d20
  have p2 := Real.pi_lt_d20
  refine ⟨_, _, ohno2011_correct c o hu hv _ _ _ (ne_of_lt hul) rfl rfl hp rfl hT, ohno2014_correct_partial c o' hu hv m hm hd h1 h2, ?_⟩
  have hf := focusAngle_arccos hul hvl
  obtain ⟨A, hA⟩ : ∃ A, Real.arccos ((c.u - 0.292) / focusDist c.u c.v) = A := ⟨_, rfl⟩
  rw [hA] at a1 a2 hf ⊢
  have hdelta : |focusAngle c.u c.v - A| ≤ 1e-19 := by
    rw [hf, abs_le]
    constructor <;> linarith
  have hF : |focusAngle c.u c.v| ≤ 3 := by
    have := abs_le.1 hdelta
    rw [abs_le]
    constructor <;> linarith
  have e1 := lbb_lipschitz hF (show |A| ≤ 3 by rw [abs_le]; constructor <;> linarith)
  have e2 := lbb_diff (a := A) (by linarith) a2
  simp only
  rw [show focusDist c.u c.v - poly6 (ohno2011Data.getD 0 []) (focusAngle c.u c.v) - (focusDist c.u c.v - poly6 ohno2014Data A) =
    -(poly6 (ohno2011Data.getD 0 []) (focusAngle c.u c.v) - poly6 (ohno2011Data.getD 0 []) A) - (poly6 (ohno2011Data.getD 0 []) A - poly6 ohno2014Data A) by ring]
  refine (abs_sub _ _).trans ?_
  rw [abs_neg]
  have : 1000 * |focusAngle c.u c.v - A| ≤ 1000 * 1e-19 := by linarith
  calc _ ≤ 1000 * |focusAngle c.u c.v - A| + 0.000012 := add_le_add e1 e2
    _ ≤ 0.000013 := by linarith

/-- The method of Ohno (2011) below the angle 2.54, for the distance `d`. -/
noncomputable def ohnoLow (a d : ℝ) : ℝ := 1 / poly6 (ohno2011Data.getD 1 []) a -
  poly6 (ohno2011Data.getD 3 []) a * (poly6 (ohno2011Data.getD 0 []) a + 0.01) / d * (d - poly6 (ohno2011Data.getD 0 []) a) / 0.01
/-- The method of Ohno (2011) from the angle 2.54 on, for the distance `d`. -/
noncomputable def ohnoHigh (a d : ℝ) : ℝ := 1 / poly6 (ohno2011Data.getD 2 []) a -
  poly6 (ohno2011Data.getD 4 []) a * (poly6 (ohno2011Data.getD 0 []) a + 0.01) / d * (d - poly6 (ohno2011Data.getD 0 []) a) / 0.01

/-- The raw temperature is made of these two pieces. -/
theorem ohnoRaw_pieces (u v : ℝ) : ohnoRaw u v = if focusAngle u v < 2.54 then ohnoLow (focusAngle u v) (focusDist u v) else ohnoHigh (focusAngle u v) (focusDist u v) := rfl

/-- C169. The two pieces of the method of Ohno (2011) meet where it changes over: at the angle 2.54 they differ by less than one kelvin on the locus, and off the locus by less than one
more kelvin per relative deviation. -/
theorem ohno2011_join (d : ℝ) (hd : 0 < d) :
    |ohnoLow 2.54 d - ohnoHigh 2.54 d| ≤ 0.91 + |d - poly6 (ohno2011Data.getD 0 []) 2.54| / d := by
  have val : ∀ k < 5, poly6 (ohno2011Data.getD k []) 2.54 = (((ohno2011Data.getD k []).foldr (fun c x => c + 2.54 * x) 0 : ℚ) : ℝ) := by
    intro k hk
    have hl : (ohno2011Data.getD k []).length = 7 := by
      interval_cases k <;> decide +kernel
    rw [poly6_pev hl]
    generalize ohno2011Data.getD k [] = l
    induction l with
    | nil => simp [pev]
    | cons c l ih => rw [pev, ih, List.foldr_cons]; push_cast; norm_num
  have q0 : (0.115 : ℚ) ≤ (ohno2011Data.getD 0 []).foldr (fun c x => c + 2.54 * x) 0 ∧ (ohno2011Data.getD 0 []).foldr (fun c x => c + 2.54 * x) 0 ≤ 0.1153 := by decide +kernel
  have q1 : |1 / (ohno2011Data.getD 1 []).foldr (fun c x => c + (2.54 : ℚ) * x) 0 - 1 / (ohno2011Data.getD 2 []).foldr (fun c x => c + 2.54 * x) 0| ≤ 0.91 := by decide +kernel
  have q3 : |(ohno2011Data.getD 3 []).foldr (fun c x => c + (2.54 : ℚ) * x) 0 - (ohno2011Data.getD 4 []).foldr (fun c x => c + 2.54 * x) 0| ≤ 0.075 := by decide +kernel
  have v0 := val 0 (by norm_num)
  have v1 := val 1 (by norm_num)
  have v2 := val 2 (by norm_num)
  have v3 := val 3 (by norm_num)
  have v4 := val 4 (by norm_num)
  have r0 : (0.115 : ℝ) ≤ poly6 (ohno2011Data.getD 0 []) 2.54 ∧ poly6 (ohno2011Data.getD 0 []) 2.54 ≤ 0.1153 := by
    rw [v0]
    constructor
    · have : ((0.115 : ℚ) : ℝ) ≤ _ := Rat.cast_le.2 q0.1
      norm_num at this ⊢
      exact this
    · have : _ ≤ ((0.1153 : ℚ) : ℝ) := Rat.cast_le.2 q0.2
      norm_num at this ⊢
      exact this
  have r1 : |1 / poly6 (ohno2011Data.getD 1 []) 2.54 - 1 / poly6 (ohno2011Data.getD 2 []) 2.54| ≤ 0.91 := by
    rw [v1, v2]
    have := (Rat.cast_le (K := ℝ)).2 q1
    push_cast at this
    norm_num at this ⊢
    exact this
  have r3 : |poly6 (ohno2011Data.getD 3 []) 2.54 - poly6 (ohno2011Data.getD 4 []) 2.54| ≤ 0.075 := by
    rw [v3, v4]
    have := (Rat.cast_le (K := ℝ)).2 q3
    push_cast at this
    norm_num at this ⊢
    exact this
  unfold ohnoLow ohnoHigh
  generalize poly6 (ohno2011Data.getD 0 []) 2.54 = l at *
  generalize poly6 (ohno2011Data.getD 1 []) 2.54 = p1 at *
  generalize poly6 (ohno2011Data.getD 2 []) 2.54 = p2 at *
  generalize poly6 (ohno2011Data.getD 3 []) 2.54 = p3 at *
  generalize poly6 (ohno2011Data.getD 4 []) 2.54 = p4 at *
  rw [show 1 / p1 - p3 * (l + 0.01) / d * (d - l) / 0.01 - (1 / p2 - p4 * (l + 0.01) / d * (d - l) / 0.01) =
    (1 / p1 - 1 / p2) - (p3 - p4) * ((l + 0.01) / 0.01) * ((d - l) / d) by field_simp; ring]
  refine (abs_sub _ _).trans (add_le_add r1 ?_)
  rw [abs_mul, abs_mul, abs_div (d - l), abs_of_pos hd]
  have h1 : |(l + 0.01) / 0.01| ≤ 12.6 := by
    rw [abs_of_nonneg (by apply div_nonneg <;> linarith), div_le_iff₀ (by norm_num)]
    linarith [r0.2]
  have h2 : |p3 - p4| * |(l + 0.01) / 0.01| ≤ 0.075 * 12.6 := mul_le_mul r3 h1 (abs_nonneg _) (by norm_num)
  have h3 : 0 ≤ |d - l| / d := by positivity
  nlinarith

/-- Bounds of a polynomial around 2.356. -/
theorem pev_box {k : List ℚ} {lo hi : ℚ} (h1 : lo ≤ plow (1 / 100) (pshift (2356 / 1000) k)) (h2 : lo ≤ hi) (h3 : plow (1 / 100) (pshift (2356 / 1000) (psm (-1) k)) ≥ -hi)
    {a : ℝ} (ha : 2.346 ≤ a) (hb : a ≤ 2.366) : (lo : ℝ) ≤ pev k a ∧ pev k a ≤ hi := by
  have hv : |a - ((2356 / 1000 : ℚ) : ℝ)| ≤ ((1 / 100 : ℚ) : ℝ) := by
    push_cast
    rw [abs_le]
    constructor <;> linarith
  have e1 := plow_le (pshift (2356 / 1000) k) hv
  have e2 := plow_le (pshift (2356 / 1000) (psm (-1) k)) hv
  rw [pev_shift, add_sub_cancel] at e1 e2
  rw [pev_sm] at e2
  have c1 : (lo : ℝ) ≤ (plow (1 / 100) (pshift (2356 / 1000) k) : ℚ) := by exact_mod_cast h1
  have c2 : ((-hi : ℚ) : ℝ) ≤ (plow (1 / 100) (pshift (2356 / 1000) (psm (-1) k)) : ℚ) := by exact_mod_cast h3
  push_cast at c2 e2
  constructor <;> linarith

/-- A chromaticity that meets the hypotheses of `ohno_duv_agree`: (0.21, 0.322), near the black body of 5100 K. -/
theorem ohno_duv_agree_meets : NearestRow 165 0.21 0.322 ∧ locusD2 165 0.21 0.322 < 1 ∧
    1.65 ≤ Real.arccos ((0.21 - 0.292) / focusDist 0.21 0.322) ∧ Real.arccos ((0.21 - 0.292) / focusDist 0.21 0.322) ≤ 2.88 ∧
    (if focusAngle 0.21 0.322 < 2.54 then poly6 (ohno2011Data.getD 1 []) (focusAngle 0.21 0.322) else poly6 (ohno2011Data.getD 2 []) (focusAngle 0.21 0.322)) ≠ 0 ∧
    1000 ≤ ohnoRaw 0.21 0.322 ∧ ohnoRaw 0.21 0.322 ≤ 20000 := by
  have p1 := Real.pi_gt_d20
  have p2 := Real.pi_lt_d20
  have hf := focusAngle_arccos (u := 0.21) (v := 0.322) (by norm_num) (by norm_num)
  have hA : focusAngle 0.21 0.322 = -(Real.pi / 4) + 3.14159265358979323846 := by
    unfold focusAngle
    have e : ((0.322 : ℝ) - 0.24) / (0.21 - 0.292) = -1 := by norm_num
    simp only [e, Real.arctan_neg, Real.arctan_one]
    rw [if_neg (by linarith)]
  have hdist : 0.115 ≤ focusDist 0.21 0.322 ∧ focusDist 0.21 0.322 ≤ 0.117 := by
    unfold focusDist
    constructor
    · exact Real.le_sqrt_of_sq_le (by norm_num)
    · rw [Real.sqrt_le_left (by norm_num)]
      norm_num
  have hn := nearest_rat (m := 165) (u := 0.21) (v := 0.322) (by omega) (by decide +kernel) (by decide +kernel)
  have hl : ratD2 165 0.21 0.322 < 1 := by decide +kernel
  have hl' := ratD2_cast 165 0.21 0.322
  have c1 : ((0.21 : ℚ) : ℝ) = 0.21 := by norm_num
  have c2 : ((0.322 : ℚ) : ℝ) = 0.322 := by norm_num
  rw [c1, c2] at hn hl'
  have ha1 : 2.346 ≤ focusAngle 0.21 0.322 := by rw [hA]; linarith
  have ha2 : focusAngle 0.21 0.322 ≤ 2.366 := by rw [hA]; linarith
  have b0 := pev_box (k := ohno2011Data.getD 0 []) (lo := 0.11) (hi := 0.12) (by decide +kernel) (by decide +kernel) (by decide +kernel) ha1 ha2
  have b1 := pev_box (k := ohno2011Data.getD 1 []) (lo := 1 / 6000) (hi := 1 / 4000) (by decide +kernel) (by decide +kernel) (by decide +kernel) ha1 ha2
  have b3 := pev_box (k := ohno2011Data.getD 3 []) (lo := 0) (hi := 30) (by decide +kernel) (by decide +kernel) (by decide +kernel) ha1 ha2
  rw [← poly6_pev (by decide +kernel)] at b0 b1 b3
  push_cast at b0 b1 b3
  refine ⟨hn, by rw [hl']; exact_mod_cast hl, by rw [hf] at ha1; linarith, by rw [hf] at ha2; linarith, ?_, ?_⟩
  · rw [if_pos (by linarith)]
    intro h
    rw [h] at b1
    norm_num at b1
  · rw [ohnoRaw_pieces, if_pos (by linarith), ohnoLow]
    generalize poly6 (ohno2011Data.getD 0 []) (focusAngle 0.21 0.322) = l at *
    generalize poly6 (ohno2011Data.getD 1 []) (focusAngle 0.21 0.322) = q1 at *
    generalize poly6 (ohno2011Data.getD 3 []) (focusAngle 0.21 0.322) = q3 at *
    generalize focusDist 0.21 0.322 = d at *
    have g1 : (4000 : ℝ) ≤ 1 / q1 := by
      rw [le_div_iff₀ (by linarith [b1.1])]
      linarith [b1.2]
    have g2 : q3 * (l + 0.01) / d ≤ 40 := by
      rw [div_le_iff₀ (by linarith)]
      nlinarith [b3.1, b3.2, b0.1, b0.2]
    have g3 : 0 ≤ q3 * (l + 0.01) / d := div_nonneg (mul_nonneg b3.1 (by linarith [b0.1])) (by linarith)
    have g4 : d - l ≤ 0.01 := by linarith [b0.1]
    have g5 : q3 * (l + 0.01) / d * (d - l) ≤ 40 * 0.01 := by
      by_cases hs : 0 ≤ d - l
      · exact mul_le_mul g2 g4 hs (by norm_num)
      · push Not at hs
        nlinarith
    have g6 : q3 * (l + 0.01) / d * (d - l) / 0.01 ≤ 40 := by
      rw [div_le_iff₀ (by norm_num)]
      exact g5
    have g7 : 1 / q1 ≤ 6000 := by
      rw [div_le_iff₀ (by linarith [b1.1])]
      linarith [b1.1]
    have g8 : -40 ≤ q3 * (l + 0.01) / d * (d - l) / 0.01 := by
      rw [le_div_iff₀ (by norm_num)]
      have : -0.01 ≤ d - l := by linarith [b0.2]
      nlinarith
    constructor <;> linarith

theorem corr_pieces : ∀ i : ℕ, i < 261 → pabs (1 / 400) (pshift (3 + (2 * (i : ℚ) + 1) / 400) (ohno2011Data.getD 5 [])) ≤ 14 ∧
    pabs (1 / 400) (pshift (3 + (2 * (i : ℚ) + 1) / 400) (ohno2011Data.getD 6 [])) ≤ 490 := by decide +kernel

theorem corr_bound {l : ℝ} (h1 : 3 ≤ l) (h2 : l ≤ 4.305) :
    |poly6 (ohno2011Data.getD 5 []) l| ≤ 14 ∧ |poly6 (ohno2011Data.getD 6 []) l| ≤ 490 := by
  rw [poly6_pev (by decide +kernel), poly6_pev (by decide +kernel)]
  obtain ⟨i, hi⟩ : ∃ i : ℕ, i = ⌊(l - 3) * 200⌋₊ := ⟨_, rfl⟩
  have f1 := Nat.floor_le (show (0 : ℝ) ≤ (l - 3) * 200 by linarith)
  have f2 := Nat.lt_floor_add_one ((l - 3) * 200)
  rw [← hi] at f1 f2
  obtain ⟨j, hj, g1, g2⟩ : ∃ j : ℕ, j < 261 ∧ (j : ℝ) ≤ (l - 3) * 200 ∧ (l - 3) * 200 ≤ j + 1 := by
    by_cases hi2 : i < 261
    · exact ⟨i, hi2, f1, f2.le⟩
    · refine ⟨260, by norm_num, ?_, ?_⟩
      · have : ((261 : ℕ) : ℝ) ≤ i := by exact_mod_cast not_lt.1 hi2
        push_cast at this ⊢
        linarith
      · push_cast
        linarith
  have hv : |l - ((3 + (2 * j + 1) / 400 : ℚ) : ℝ)| ≤ ((1 / 400 : ℚ) : ℝ) := by
    push_cast
    rw [abs_le]
    constructor <;> linarith
  have key : ∀ (k : List ℚ) (b : ℚ), pabs (1 / 400) (pshift (3 + (2 * (j : ℚ) + 1) / 400) k) ≤ b → |pev k l| ≤ b := by
    intro k b hb
    have hs := pev_shift (3 + (2 * j + 1) / 400) k (l - ((3 + (2 * j + 1) / 400 : ℚ) : ℝ))
    rw [add_sub_cancel] at hs
    rw [← hs]
    exact (abs_pev_le _ hv).trans (by exact_mod_cast hb)
  obtain ⟨c1, c2⟩ := corr_pieces j hj
  have k1 := key _ _ c1
  have k2 := key _ _ c2
  push_cast at k1 k2
  exact ⟨k1, k2⟩

/-- C169. The last correction of the method of Ohno (2011) is small: for raw temperatures from 1000 K to 20000 K it moves the result by at most 14 K above the locus, and by at most 490 K
times the square of the distance in units of 0.03 below it. -/
theorem ohno2011_last_correction (c : Uv60 ℝ) (o : Cct XR) (hu : c.uInv = false) (hv : c.vInv = false) (hne : c.u ≠ 0.292)
    (hp : (if focusAngle c.u c.v < 2.54 then poly6 (ohno2011Data.getD 1 []) (focusAngle c.u c.v) else poly6 (ohno2011Data.getD 2 []) (focusAngle c.u c.v)) ≠ 0)
    (h1 : 1000 ≤ ohnoRaw c.u c.v) (h2 : ohnoRaw c.u c.v ≤ 20000) :
    ∃ r : Cct ℝ, clrUv60Cct .ohno2011 c.emb o = ok (0, r.emb) ∧ r.duv = focusDist c.u c.v - poly6 (ohno2011Data.getD 0 []) (focusAngle c.u c.v) ∧
      (0 ≤ r.duv → |r.cct - ohnoRaw c.u c.v| ≤ 14) ∧ (r.duv < 0 → |r.cct - ohnoRaw c.u c.v| ≤ 490 * (r.duv / 0.03) ^ 2) := by
  refine ⟨_, ohno2011_correct c o hu hv _ _ _ hne rfl rfl hp rfl (by linarith), rfl, ?_, ?_⟩ <;> simp only
  all_goals
    have l1 : 3 ≤ Real.logb 10 (ohnoRaw c.u c.v) := by
      rw [Real.le_logb_iff_rpow_le (by norm_num) (by linarith)]
      norm_num
      exact h1
    have l2 : Real.logb 10 (ohnoRaw c.u c.v) ≤ 4.305 := by
      have e : Real.log ((2 : ℝ) ^ 200) ≤ Real.log ((10 : ℝ) ^ 61) := Real.log_le_log (by positivity) (by norm_num)
      rw [Real.log_pow, Real.log_pow] at e
      push_cast at e
      have e2 : Real.log (ohnoRaw c.u c.v) ≤ Real.log 20000 := Real.log_le_log (by linarith) h2
      have e4 : Real.log 20000 = Real.log 2 + 4 * Real.log 10 := by
        rw [show (20000 : ℝ) = 2 * 10 ^ 4 by norm_num, Real.log_mul (by norm_num) (by norm_num), Real.log_pow]
        push_cast
        ring
      have e3 : 0 < Real.log 10 := Real.log_pos (by norm_num)
      rw [Real.logb, div_le_iff₀ e3]
      linarith
    obtain ⟨b1, b2⟩ := corr_bound l1 l2
  · intro hd
    rw [if_pos hd, show ∀ T x : ℝ, T - x - T = -x by intros; ring, abs_neg]
    exact b1
  · intro hd
    rw [if_neg (not_le.2 hd), show ∀ T x : ℝ, T - x - T = -x by intros; ring, abs_neg, abs_mul, abs_sq]
    exact mul_le_mul_of_nonneg_right b2 (sq_nonneg _)

end Verif
