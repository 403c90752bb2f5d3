import Verif.Props.CctTrip
import Verif.Lemmas.McBox

/-!
# McCamy's formula on black bodies (C157)
-/

namespace Verif

open Out XR LT MC

/-- What McCamy's method returns for the colour of a black body. -/
theorem mc_value {T : ℝ} (hT : 0 < T) (o : Uv60 XR) (hu : o.uInv = false) (hv : o.vInv = false) (o' : Cct XR)
    (h1 : 0 < 2 * (gl yN T / gl dN T) - 0.1858 * (2 * (gl xN T / gl dN T) - 8 * (gl yN T / gl dN T) + 4))
    (h2 : 0 < 2 * (gl xN T / gl dN T) - 8 * (gl yN T / gl dN T) + 4) (x : Xyy XR) :
    ∃ c, clrCtUv60 x (fin T) .deg2 o = ok (0, c) ∧
      clrUv60Cct .mccamy c o' = ok (0, ⟨fin (cubic (slopeR (gl xN T / gl dN T) (gl yN T / gl dN T))), fin 0, o'.cctInv, true⟩) := by
  refine ⟨_, body_color hT x o, ?_⟩
  have e1 : (bodyColor T o).u = gl xN T / gl dN T := by rw [bodyColor, planckUv_gl]
  have e2 : (bodyColor T o).v = gl yN T / gl dN T := by rw [bodyColor, planckUv_gl]
  rw [← e1, ← e2] at h1 h2 ⊢
  generalize hc : bodyColor T o = c at *
  have fu : c.uInv = false := by rw [← hc]; exact hu
  have fv : c.vInv = false := by rw [← hc]; exact hv
  have hy : 2 * c.v / (2 * c.u - 8 * c.v + 4) ≠ 0.1858 := by
    intro h
    rw [div_eq_iff h2.ne'] at h
    linarith
  rw [mccamy_correct c o' fu fv _ _ (slopeR c.u c.v) h2.ne' rfl rfl hy]
  · rfl
  · unfold slopeR
    have h3 : (0.1858 : ℝ) - 2 * c.v / (2 * c.u - 8 * c.v + 4) ≠ 0 := by intro h; apply hy; linarith
    generalize 2 * c.u - 8 * c.v + 4 = D at *
    have h2' := h2.ne'
    have h1' := h1.ne'
    have h4 : 0.1858 * D - 2 * c.v ≠ 0 := by intro h; apply h1'; linarith
    have h5 : (0.1858 : ℝ) - 2 * c.v / D = (0.1858 * D - 2 * c.v) / D := by field_simp
    have h6 : 3 * c.u / D - 0.3320 = (3 * c.u - 0.3320 * D) / D := by field_simp
    rw [h5, h6, div_div_div_cancel_right₀ h2']
    rw [div_eq_div_iff (by first | exact h1' | exact h4) (by first | exact h1' | exact h4)]
    try ring

/-- The rows on either side of a temperature are known from a bound on it. -/
theorem seg_ge {T : ℝ} {i j : ℕ} (hj : j < 304) (h : locusT j < T) (hT : T ≤ locusT (i + 1)) : j ≤ i := by
  by_contra hn
  rcases Nat.lt_or_ge (i + 1) j with h' | h'
  · linarith [locusT_lt h' hj]
  · have : j = i + 1 := by omega
    subst this
    linarith

theorem seg_le {T : ℝ} {i j : ℕ} (hi : i < 304) (h : T < locusT j) (hT : locusT i ≤ T) : i < j := by
  by_contra hn
  rcases Nat.lt_or_ge j i with h' | h'
  · linarith [locusT_lt h' hi]
  · have : j = i := by omega
    subst this
    linarith

theorem locusT_val {k : ℕ} (hk : k < 304) {n : ℕ} (h : tT.getD k 0 = n) : locusT k = (n : ℝ) / 1000000 := by
  rw [locusT_nat hk, h]

/-- The bounds that `inOk` certifies for a range of rows, at every temperature in it. -/
theorem mc_of_rows {T : ℝ} {a n : ℕ} {e1 e2 : ℤ} (ha : 1 ≤ a) (han : a + n ≤ 302) (hrows : ∀ i < n, ∀ k < 4, inOk e1 e2 (i + a) (k : ℕ) = true)
    (he1 : 0 ≤ 1000 + e1) (he2 : 0 ≤ 1000 + e2) (h1 : locusT a < T) (h2 : T < locusT (a + n)) (x : Xyy XR) (o : Uv60 XR) (hu : o.uInv = false)
    (hv : o.vInv = false) (o' : Cct XR) : ∃ (c : Uv60 XR) (r : ℝ), clrCtUv60 x (fin T) .deg2 o = ok (0, c) ∧
      clrUv60Cct .mccamy c o' = ok (0, ⟨fin r, fin 0, o'.cctInv, true⟩) ∧ (1000 + e1) / 1000 * T ≤ r ∧ r ≤ (1000 + e2) / 1000 * T := by
  have b1 : (1000 : ℝ) ≤ locusT a := by
    rcases Nat.lt_or_ge 1 a with h | h
    · have := locusT_lt h (by omega : a < 304)
      rw [locusT_val (k := 1) (by omega) (n := 1000000000) (by decide +kernel)] at this
      norm_num at this
      linarith
    · have : a = 1 := by omega
      rw [this, locusT_val (k := 1) (by omega) (n := 1000000000) (by decide +kernel)]
      norm_num
  have b2 : locusT (a + n) ≤ 19986.350925 := by
    have e : locusT 302 = 19986.350925 := by
      rw [locusT_val (k := 302) (by omega) (n := 19986350925) (by decide +kernel)]
      norm_num
    rcases Nat.lt_or_ge (a + n) 302 with h | h
    · have := locusT_lt h (by omega)
      linarith
    · have : a + n = 302 := by omega
      rw [this, e]
  have hT : 0 < T := by linarith
  obtain ⟨i, t, i1, i2, t0, t1, p, q, he⟩ := segment (T := T) (by linarith) (by linarith)
  have ia : a ≤ i := seg_ge (by omega) h1 q
  have ib : i < a + n := seg_le (by omega) h2 p
  obtain ⟨k, hk, k0, k1⟩ := quarter t0 t1
  have hr := hrows (i - a) (by omega) k hk
  rw [show i - a + a = i by omega] at hr
  obtain ⟨g1, g2, g3, g4⟩ := in_range hr i1 i2 t0 t1 hT he k0 k1 (by omega) (by omega) he1 he2
  obtain ⟨c, hc, hm⟩ := mc_value hT o hu hv o' g1 g2 x
  exact ⟨c, _, hc, hm, g3, g4⟩

/-- C157. The colour of a black body between 1800 K and 9300 K, computed by `zsl_clr_conv_ct_uv60` for the 2° observer and converted back
with McCamy's formula, gives the temperature up to 1.4 percent. -/
theorem mccamy_round_trip {T : ℝ} (h1 : 1800 ≤ T) (h2 : T ≤ 9300) (x : Xyy XR) (o : Uv60 XR) (hu : o.uInv = false) (hv : o.vInv = false)
    (o' : Cct XR) : ∃ (c : Uv60 XR) (r : ℝ), clrCtUv60 x (fin T) .deg2 o = ok (0, c) ∧
      clrUv60Cct .mccamy c o' = ok (0, ⟨fin r, fin 0, o'.cctInv, true⟩) ∧ -0.014 * T ≤ r - T ∧ r - T ≤ 0.008 * T := by
  obtain ⟨c, r, hc, hm, g1, g2⟩ := mc_of_rows (T := T) (by omega) (by omega) in_good (by norm_num) (by norm_num)
    (by rw [locusT_val (k := 60) (by omega) (n := 1798709603) (by decide +kernel)]; norm_num; linarith)
    (by rw [locusT_val (k := 60 + 166) (by omega) (n := 9382295369) (by decide +kernel)]; norm_num; linarith) x o hu hv o'
  refine ⟨c, r, hc, hm, ?_, ?_⟩ <;> norm_num at g1 g2 ⊢ <;> linarith

/-- C157. Up to 12500 K it is within 4.1 percent. -/
theorem mccamy_round_trip_warm {T : ℝ} (h1 : 1800 ≤ T) (h2 : T ≤ 12500) (x : Xyy XR) (o : Uv60 XR) (hu : o.uInv = false) (hv : o.vInv = false)
    (o' : Cct XR) : ∃ (c : Uv60 XR) (r : ℝ), clrCtUv60 x (fin T) .deg2 o = ok (0, c) ∧
      clrUv60Cct .mccamy c o' = ok (0, ⟨fin r, fin 0, o'.cctInv, true⟩) ∧ |r - T| ≤ 0.041 * T := by
  rcases le_total T 9300 with h | h
  · obtain ⟨c, r, hc, hm, g1, g2⟩ := mccamy_round_trip h1 h x o hu hv o'
    refine ⟨c, r, hc, hm, ?_⟩
    rw [abs_le]
    norm_num at g1 g2 ⊢
    constructor <;> linarith
  · obtain ⟨c, r, hc, hm, g1, g2⟩ := mc_of_rows (T := T) (a := 225) (n := 30) (e1 := -41) (e2 := 8) (by omega) (by omega)
      (by
        intro i hi k hk
        rcases Nat.eq_zero_or_pos i with rfl | hp
        · have : ∀ k < 4, inOk (-41) 8 (0 + 225) (k : ℕ) = true := by decide +kernel
          exact this k hk
        · have := in_fair (i - 1) (by omega) k hk
          rwa [show i - 1 + 226 = i + 225 by omega] at this) (by norm_num) (by norm_num)
      (by rw [locusT_val (k := 225) (by omega) (n := 9289401356) (by decide +kernel)]; norm_num; linarith)
      (by rw [locusT_val (k := 225 + 30) (by omega) (n := 12520709541) (by decide +kernel)]; norm_num; linarith) x o hu hv o'
    refine ⟨c, r, hc, hm, ?_⟩
    rw [abs_le]
    norm_num at g1 g2 ⊢
    constructor <;> linarith

/-- C157. Hot bodies come back too cold: from 16300 K to 19900 K by at least 8.2 and at most 14.8 percent. -/
theorem mccamy_round_trip_hot {T : ℝ} (h1 : 16300 ≤ T) (h2 : T ≤ 19900) (x : Xyy XR) (o : Uv60 XR) (hu : o.uInv = false) (hv : o.vInv = false)
    (o' : Cct XR) : ∃ (c : Uv60 XR) (r : ℝ), clrCtUv60 x (fin T) .deg2 o = ok (0, c) ∧
      clrUv60Cct .mccamy c o' = ok (0, ⟨fin r, fin 0, o'.cctInv, true⟩) ∧ r - T ≤ -0.082 * T ∧ -0.148 * T ≤ r - T := by
  obtain ⟨c, r, hc, hm, g1, g2⟩ := mc_of_rows (T := T) (by omega) (by omega) in_low (by norm_num) (by norm_num)
    (by rw [locusT_val (k := 281) (by omega) (n := 16217528101) (by decide +kernel)]; norm_num; linarith)
    (by rw [locusT_val (k := 281 + 21) (by omega) (n := 19986350925) (by decide +kernel)]; norm_num; linarith) x o hu hv o'
  refine ⟨c, r, hc, hm, ?_, ?_⟩ <;> norm_num at g1 g2 ⊢ <;> linarith

/-- C157. Over the whole range from 1800 K to 19900 K the result is never more than 0.8 percent too hot nor more than 14.8 percent too cold. -/
theorem mccamy_round_trip_all {T : ℝ} (h1 : 1800 ≤ T) (h2 : T ≤ 19900) (x : Xyy XR) (o : Uv60 XR) (hu : o.uInv = false) (hv : o.vInv = false)
    (o' : Cct XR) : ∃ (c : Uv60 XR) (r : ℝ), clrCtUv60 x (fin T) .deg2 o = ok (0, c) ∧
      clrUv60Cct .mccamy c o' = ok (0, ⟨fin r, fin 0, o'.cctInv, true⟩) ∧ -0.148 * T ≤ r - T ∧ r - T ≤ 0.008 * T := by
  obtain ⟨c, r, hc, hm, g1, g2⟩ := mc_of_rows (T := T) (by omega) (by omega) in_all (by norm_num) (by norm_num)
    (by rw [locusT_val (k := 60) (by omega) (n := 1798709603) (by decide +kernel)]; norm_num; linarith)
    (by rw [locusT_val (k := 60 + 242) (by omega) (n := 19986350925) (by decide +kernel)]; norm_num; linarith) x o hu hv o'
  refine ⟨c, r, hc, hm, ?_, ?_⟩ <;> norm_num at g1 g2 ⊢ <;> linarith

/-- C157. Cool bodies come back much too hot: below 1180 K the result is at least one and a half times the temperature (the cubic falls
where it should rise), without any indication in the result. -/
theorem mccamy_round_trip_cool {T : ℝ} (h1 : 1000 ≤ T) (h2 : T ≤ 1180) (x : Xyy XR) (o : Uv60 XR) (hu : o.uInv = false) (hv : o.vInv = false)
    (o' : Cct XR) : ∃ (c : Uv60 XR) (r : ℝ), clrCtUv60 x (fin T) .deg2 o = ok (0, c) ∧
      clrUv60Cct .mccamy c o' = ok (0, ⟨fin r, fin 0, o'.cctInv, true⟩) ∧ 1.5 * T ≤ r := by
  have hT : 0 < T := by linarith
  obtain ⟨i, t, i1, i2, t0, t1, p, q, he⟩ := segment h1 (by norm_num; linarith)
  have ib : i < 19 := seg_le (j := 19) (by omega)
    (by rw [locusT_val (k := 19) (by omega) (n := 1196147476) (by decide +kernel)]; norm_num; linarith) p
  obtain ⟨k, hk, k0, k1⟩ := quarter t0 t1
  have hr := in_off (i - 1) (by omega) k hk
  rw [show i - 1 + 1 = i by omega] at hr
  obtain ⟨g1, g2, g3⟩ := off_range hr i1 i2 t0 t1 hT he k0 k1 (by omega) (by omega) (by norm_num)
  obtain ⟨c, hc, hm⟩ := mc_value hT o hu hv o' g1 g2 x
  refine ⟨c, _, hc, hm, ?_⟩
  norm_num at g3 ⊢
  exact g3

/-- C157. The hypotheses are met: daylight and candle light. -/
example : ((1800 : ℝ) ≤ 6500 ∧ (6500 : ℝ) ≤ 9300) ∧ ((1800 : ℝ) ≤ 12000 ∧ (12000 : ℝ) ≤ 12500) ∧ ((16300 : ℝ) ≤ 18000 ∧ (18000 : ℝ) ≤ 19900) ∧
    ((1000 : ℝ) ≤ 1100 ∧ (1100 : ℝ) ≤ 1180) := by norm_num

end Verif
