import Verif.Lemmas.LocusTrip

/-!
# A temperature, its colour and back (C155)

`zsl_clr_conv_ct_uv60` computes the colour of a black body by summing Planck's law over the observer; `zsl_clr_conv_uv60_cct` finds
the temperature of a colour in a table. The two are written independently of each other: here they are compared.
-/

namespace Verif

open Out XR LT Finset

/-! ### Planck's law and the observer -/

theorem planck_bb (T : ℝ) (n : ℕ) (hn : 0 < n) : planck T (n * 1e-9) = 3.74183162616761619e29 * bb T n := by
  have hn' : (0 : ℝ) < n := by exact_mod_cast hn
  unfold planck bb
  have e : (1.4387863142323088e-2 : ℝ) / (n * 1e-9 * T) = cA / (n * T) := by
    unfold cA
    rw [show (n : ℝ) * 1e-9 * T = (n * T) * 1e-9 by ring, ← div_div, div_right_comm]
    norm_num
  rw [e]
  generalize Real.exp (cA / (n * T)) - 1 = z
  rw [show ((n : ℝ) * 1e-9) ^ 5 * z = (n ^ 5 * z) * 1e-45 by ring, ← div_div, div_right_comm, mul_one_div]
  norm_num

theorem obs_get {k : ℕ} (hk : k < 95) : 4 * (cmf .deg2 (gridNm k)).1 = xN k * 1e-12 ∧ 6 * (cmf .deg2 (gridNm k)).2.1 = yN k * 1e-12 ∧
    (cmf .deg2 (gridNm k)).1 + 15 * (cmf .deg2 (gridNm k)).2.1 + 3 * (cmf .deg2 (gridNm k)).2.2 = dN k * 1e-12 := by
  have lX : oX.length = 95 := by decide +kernel
  have lY : oY.length = 95 := by decide +kernel
  have lD : oD.length = 95 := by decide +kernel
  have lO : obs2Deg.length = 95 := by decide +kernel
  have key : ∀ (o : List (ℚ × ℚ × ℚ)) (a b c : List ℕ), o.length = 95 → a.length = 95 → b.length = 95 → c.length = 95 →
      o.map (fun r => (4 * r.1, 6 * r.2.1, r.1 + 15 * r.2.1 + 3 * r.2.2)) =
        ((a.zip (b.zip c)).map fun r => ((r.1 : ℚ) / 1000000000000, (r.2.1 : ℚ) / 1000000000000, (r.2.2 : ℚ) / 1000000000000)) →
      4 * (o.getD k (0, 0, 0)).1 = ((a.getD k 0 : ℕ) : ℚ) / 1000000000000 ∧ 6 * (o.getD k (0, 0, 0)).2.1 = ((b.getD k 0 : ℕ) : ℚ) / 1000000000000 ∧
      (o.getD k (0, 0, 0)).1 + 15 * (o.getD k (0, 0, 0)).2.1 + 3 * (o.getD k (0, 0, 0)).2.2 = ((c.getD k 0 : ℕ) : ℚ) / 1000000000000 := by
    intro o a b c ho ha hb hc h
    have h' := congrArg (fun l => l.getD k (0, 0, 0)) h
    rw [getD_lt (by simp [ho, hk]), getD_lt (by simp [ha, hb, hc, hk])] at h'
    rw [getD_lt (by omega : k < o.length), getD_lt (by omega : k < a.length), getD_lt (by omega : k < b.length), getD_lt (by omega : k < c.length)]
    simpa [Prod.ext_iff] using h'
  obtain ⟨h1, h2, h3⟩ := key _ _ _ _ lO lX lY lD obs_eq
  have e : (gridNm k - 360) / 5 = k := by unfold gridNm; omega
  have hc : cmf .deg2 (gridNm k) = (((obs2Deg.getD k (0, 0, 0)).1 : ℝ), ((obs2Deg.getD k (0, 0, 0)).2.1 : ℝ), ((obs2Deg.getD k (0, 0, 0)).2.2 : ℝ)) := by
    unfold cmf
    rw [e]
    rfl
  rw [hc]
  simp only
  have g1 := congrArg (fun q : ℚ => (q : ℝ)) h1
  have g2 := congrArg (fun q : ℚ => (q : ℝ)) h2
  have g3 := congrArg (fun q : ℚ => (q : ℝ)) h3
  have xd : xN k = oX.getD k 0 := rfl
  have yd : yN k = oY.getD k 0 := rfl
  rw [xd, yd, dN_def]
  generalize oX.getD k 0 = a at *
  generalize oY.getD k 0 = b at *
  generalize oD.getD k 0 = c at *
  push_cast at g1 g2 g3
  refine ⟨?_, ?_, ?_⟩
  · rw [g1]; norm_num; ring
  · rw [g2]; norm_num; ring
  · rw [g3]; norm_num; ring

/-- The chromaticity of the black body in terms of the integers of the computation. -/
theorem planckUv_gl (T : ℝ) : planckUv .deg2 T = (gl xN T / gl dN T, gl yN T / gl dN T) := by
  have hs : ∀ k ∈ range 95, planck T (gridNm k * 1e-9) = 3.74183162616761619e29 * bb T ((360 + 5 * k : ℕ) : ℝ) := fun k _ =>
    planck_bb T (gridNm k) (by unfold gridNm; omega)
  have eX : 4 * glow .deg2 (·.1) T = 3.74183162616761619e29 * 1e-12 * gl xN T := by
    unfold glow gl
    rw [mul_sum, mul_sum]
    refine sum_congr rfl fun k hk => ?_
    rw [hs k hk]
    have := (obs_get (mem_range.1 hk)).1
    linear_combination (3.74183162616761619e29 * bb T ((360 + 5 * k : ℕ) : ℝ)) * this
  have eY : 6 * glow .deg2 (·.2.1) T = 3.74183162616761619e29 * 1e-12 * gl yN T := by
    unfold glow gl
    rw [mul_sum, mul_sum]
    refine sum_congr rfl fun k hk => ?_
    rw [hs k hk]
    have := (obs_get (mem_range.1 hk)).2.1
    linear_combination (3.74183162616761619e29 * bb T ((360 + 5 * k : ℕ) : ℝ)) * this
  have eD : glow .deg2 (·.1) T + 15 * glow .deg2 (·.2.1) T + 3 * glow .deg2 (·.2.2) T = 3.74183162616761619e29 * 1e-12 * gl dN T := by
    unfold glow gl
    rw [mul_sum, mul_sum, mul_sum, ← sum_add_distrib, ← sum_add_distrib]
    refine sum_congr rfl fun k hk => ?_
    rw [hs k hk]
    have := (obs_get (mem_range.1 hk)).2.2
    linear_combination (3.74183162616761619e29 * bb T ((360 + 5 * k : ℕ) : ℝ)) * this
  rw [planckUv, eX, eY, eD, mul_div_mul_left _ _ (by norm_num), mul_div_mul_left _ _ (by norm_num)]

/-! ### The rows -/

theorem second_diff : ∀ m < 302, tT.getD m 0 + tT.getD (m + 2) 0 ≤ 2 * tT.getD (m + 1) 0 + tT.getD (m + 1) 0 / 5000 ∧
    2 * tT.getD (m + 1) 0 ≤ tT.getD m 0 + tT.getD (m + 2) 0 + tT.getD (m + 1) 0 / 5000 ∧
    10099 * tT.getD (m + 1) 0 ≤ 10000 * tT.getD (m + 2) 0 := by decide +kernel

theorem row_facts {m : ℕ} (h1 : 1 ≤ m) (h2 : m ≤ 302) : |(locusT (m - 1) + locusT (m + 1)) / 2 - locusT m| ≤ 0.0001 * locusT m ∧
    1.0099 * locusT m ≤ locusT (m + 1) := by
  obtain ⟨j, rfl⟩ : ∃ j, m = j + 1 := ⟨m - 1, by omega⟩
  obtain ⟨a, b, c⟩ := second_diff j (by omega)
  rw [Nat.add_sub_cancel, locusT_nat (by omega : j < 304), locusT_nat (by omega : j + 1 < 304), locusT_nat (by omega : j + 1 + 1 < 304)]
  rw [show j + 2 = j + 1 + 1 from rfl] at a b c
  have d : tT.getD (j + 1) 0 / 5000 * 5000 ≤ tT.getD (j + 1) 0 := Nat.div_mul_le_self _ _
  generalize tT.getD (j + 1) 0 / 5000 = q at *
  generalize tT.getD (j + 1 + 1) 0 = z at *
  generalize tT.getD (j + 1) 0 = y at *
  generalize tT.getD j 0 = x at *
  have a' : (x : ℝ) + z ≤ 2 * y + q := by exact_mod_cast a
  have b' : (2 : ℝ) * y ≤ x + z + q := by exact_mod_cast b
  have c' : (10099 : ℝ) * y ≤ 10000 * z := by exact_mod_cast c
  have d' : (q : ℝ) * 5000 ≤ y := by exact_mod_cast d
  rw [abs_le]
  norm_num
  refine ⟨⟨by linarith, by linarith⟩, by linarith⟩

/-- Near a row the code reports the temperature of the row, up to 0.02 percent. -/
theorem row_report (c : Uv60 ℝ) (o : Cct XR) (hu : c.uInv = false) (hv : c.vInv = false) {m : ℕ}
    (hm : NearestRow m c.u c.v) (hd : locusD2 m c.u c.v ≤ 0.005 ^ 2) (h1 : 1 ≤ m) (h2 : m ≤ 302) :
    ∃ r : Cct ℝ, clrOhno2014 c.emb o = ok (0, r.emb) ∧ |r.cct - locusT m| ≤ 0.0002 * locusT m ∧ r.cctInv = false ∧ r.duvInv = false := by
  obtain ⟨r, hr, -, -, -, i1, i2⟩ := ohno2014_near c o hu hv m hm (hd.trans (by norm_num)) h1 h2
  obtain ⟨r', hr', h⟩ := ohno2014_insensitive c o hu hv m hm hd h1 h2
  have he : r.cct = r'.cct := by
    rw [hr] at hr'
    simp only [Out.ok.injEq, Prod.mk.injEq, true_and, Cct.emb, Cct.mk.injEq, XR.fin.injEq] at hr'
    exact hr'.1
  refine ⟨r, hr, ?_, i1, i2⟩
  rw [he]
  obtain ⟨f0, f1, f2, f3, f4, -, -, -⟩ := locus_facts h1 h2
  have g := (row_facts h1 h2).1
  rw [abs_le] at h g ⊢
  norm_num at *
  constructor <;> linarith

/-- The two neighbouring rows of a temperature, and its position between them. -/
theorem segment {T : ℝ} (h1 : 1000 ≤ T) (h2 : T ≤ 19986.350925) :
    ∃ (i : ℕ) (t : ℝ), 1 ≤ i ∧ i ≤ 301 ∧ 0 ≤ t ∧ t ≤ 1 ∧ locusT i ≤ T ∧ T ≤ locusT (i + 1) ∧ 1 / T = (1 - t) / locusT i + t / locusT (i + 1) := by
  have hlo : locusT 1 ≤ T := by
    have e : tT.getD 1 0 = 1000000000 := by decide +kernel
    rw [locusT_nat (by omega), e]
    norm_num
    exact h1
  have hhi : T ≤ locusT 302 := by
    have e : tT.getD 302 0 = 19986350925 := by decide +kernel
    rw [locusT_nat (by omega), e]
    norm_num at h2 ⊢
    exact h2
  have key : ∀ n, n ≤ 301 → locusT 1 ≤ T → T ≤ locusT (1 + n) → n ≠ 0 → ∃ i, 1 ≤ i ∧ i ≤ 301 ∧ locusT i ≤ T ∧ T ≤ locusT (i + 1) := by
    intro n
    induction n with
    | zero => intro _ _ _ h; exact absurd rfl h
    | succ n ih =>
      intro hn a b _
      rcases le_total (locusT (1 + n)) T with h | h
      · exact ⟨1 + n, by omega, by omega, h, b⟩
      · rcases Nat.eq_zero_or_pos n with h0 | h0
        · subst h0
          exact ⟨1, le_rfl, by omega, a, b⟩
        · exact ih (by omega) a h (by omega)
  obtain ⟨i, i1, i2, a, b⟩ := key 301 le_rfl hlo hhi (by omega)
  have lt := locusT_lt (i := i) (j := i + 1) (by omega) (by omega)
  have p0 : 0 < locusT i := by
    have := (locus_facts (m := i) i1 (by omega))
    linarith [this.1, this.2.1]
  have p1 : 0 < locusT (i + 1) := p0.trans lt
  have pT : 0 < T := by linarith
  refine ⟨i, locusT (i + 1) * (T - locusT i) / (T * (locusT (i + 1) - locusT i)), i1, i2, ?_, ?_, a, b, ?_⟩
  · exact div_nonneg (mul_nonneg p1.le (by linarith)) (mul_nonneg pT.le (by linarith))
  · rw [div_le_one (mul_pos pT (by linarith))]
    nlinarith
  · have : locusT (i + 1) - locusT i ≠ 0 := by linarith
    field_simp
    ring

/-- The colour of a black body as `zsl_clr_conv_ct_uv60` returns it. -/
noncomputable def bodyColor (T : ℝ) (o : Uv60 XR) : Uv60 ℝ := ⟨(planckUv .deg2 T).1, (planckUv .deg2 T).2, .deg2, .A, o.uInv, o.vInv⟩

theorem body_color {T : ℝ} (hT : 0 < T) (x : Xyy XR) (o : Uv60 XR) : clrCtUv60 x (fin T) .deg2 o = ok (0, (bodyColor T o).emb) := by
  rw [ct_uv60_correct T hT.ne']
  rfl

/-- What happens to the temperature at the position `t` between the rows `i` and `i + 1`. -/
theorem trip_at {T t : ℝ} {i : ℕ} (i1 : 1 ≤ i) (i2 : i ≤ 301) (t0 : 0 ≤ t) (t1 : t ≤ 1) (hT : 0 < T)
    (he : 1 / T = (1 - t) / locusT i + t / locusT (i + 1)) (o : Uv60 XR) (hu : o.uInv = false) (hv : o.vInv = false) (o' : Cct XR) :
    ∃ (r : Cct ℝ) (m : ℕ), clrUv60Cct .ohno2014 (bodyColor T o).emb o' = ok (0, r.emb) ∧ |r.cct - locusT m| ≤ 0.0002 * locusT m ∧
      r.cctInv = false ∧ r.duvInv = false ∧ ((m = i ∧ t ≤ 0.63) ∨ (m = i + 1 ∧ 0.37 ≤ t)) := by
  have hc := locus_chord i1 i2 t0 t1 hT he
  have e1 : (bodyColor T o).u = gl xN T / gl dN T := by rw [bodyColor, planckUv_gl]
  have e2 : (bodyColor T o).v = gl yN T / gl dN T := by rw [bodyColor, planckUv_gl]
  rw [← e1, ← e2] at hc
  obtain ⟨m, hm, -⟩ := nearest_exists (bodyColor T o).u (bodyColor T o).v
  have h2 := nearest_two i1 i2 t0 t1 hc hm
  obtain ⟨d1, d2⟩ := nearest_close i1 i2 t0 t1 hc
  have hd : locusD2 m (bodyColor T o).u (bodyColor T o).v ≤ 0.005 ^ 2 := by
    rcases h2 with ⟨rfl, -⟩ | ⟨rfl, -⟩
    · exact d1
    · exact d2
  obtain ⟨r, hr, ha, f1, f2⟩ := row_report (bodyColor T o) o' hu hv hm hd (by omega) (by omega)
  exact ⟨r, m, hr, ha, f1, f2, h2⟩

/-- C155. The colour of a black body of any temperature from 1000 K to 19986 K, computed by `zsl_clr_conv_ct_uv60` for the 2° observer
and converted back by `zsl_clr_conv_uv60_cct`, gives the temperature up to 0.66 percent; both calls succeed and nothing is flagged. -/
theorem cct_round_trip {T : ℝ} (h1 : 1000 ≤ T) (h2 : T ≤ 19986.350925) (x : Xyy XR) (o : Uv60 XR) (hu : o.uInv = false) (hv : o.vInv = false)
    (o' : Cct XR) : ∃ (c : Uv60 XR) (r : Cct ℝ), clrCtUv60 x (fin T) .deg2 o = ok (0, c) ∧ clrUv60Cct .ohno2014 c o' = ok (0, r.emb) ∧
      |r.cct - T| ≤ 0.0066 * T ∧ r.cctInv = false ∧ r.duvInv = false := by
  have hT : 0 < T := by linarith
  obtain ⟨i, t, i1, i2, t0, t1, a, b, he⟩ := segment h1 h2
  obtain ⟨r, m, hr, ha, f1, f2, hm⟩ := trip_at i1 i2 t0 t1 hT he o hu hv o'
  refine ⟨_, r, body_color hT x o, hr, ?_, f1, f2⟩
  have lt := locusT_lt (i := i) (j := i + 1) (by omega) (by omega)
  have fi := locus_facts (m := i) i1 (by omega)
  have p0 : 0 < locusT i := fi.1.trans fi.2.1
  have p1 : 0 < locusT (i + 1) := p0.trans lt
  have hr2 : locusT (i + 1) ≤ 1.01001 * locusT i := by
    obtain ⟨j, rfl⟩ : ∃ j, i = j + 1 := ⟨i - 1, by omega⟩
    have := (temps_fine j (by omega)).2
    have : ((100000 * tT.getD (j + 2) 0 : ℕ) : ℝ) ≤ ((101001 * tT.getD (j + 1) 0 : ℕ) : ℝ) := by exact_mod_cast this
    rw [locusT_nat (by omega : j + 1 < 304), locusT_nat (by omega : j + 1 + 1 < 304)]
    rw [show j + 2 = j + 1 + 1 from rfl] at this
    simp only [Nat.cast_mul, Nat.cast_ofNat] at this
    generalize ((tT.getD (j + 1) 0 : ℕ) : ℝ) = y at *
    generalize ((tT.getD (j + 1 + 1) 0 : ℕ) : ℝ) = z at *
    norm_num
    linarith
  rcases hm with ⟨rfl, ht⟩ | ⟨rfl, ht⟩
  · -- the row below
    have hTT : T * locusT (m + 1) - T * t * (locusT (m + 1) - locusT m) = locusT m * locusT (m + 1) := by
      field_simp at he
      linarith
    have up : T - locusT m ≤ 0.0064 * T := by
      have e : (T - locusT m) * locusT (m + 1) = T * t * (locusT (m + 1) - locusT m) := by linarith
      have h3 : T * t * (locusT (m + 1) - locusT m) ≤ T * 0.63 * (0.01001 * locusT (m + 1)) := by
        refine mul_le_mul (mul_le_mul_of_nonneg_left ht hT.le) ?_ (by linarith) (by positivity)
        norm_num at hr2 ⊢
        linarith
      have : (T - locusT m) * locusT (m + 1) ≤ 0.0064 * T * locusT (m + 1) := by
        rw [e]
        refine h3.trans ?_
        have : 0 < T * locusT (m + 1) := by positivity
        norm_num
        nlinarith
      exact le_of_mul_le_mul_right this p1
    rw [abs_le] at ha ⊢
    norm_num at *
    constructor <;> linarith
  · -- the row above
    have hTT : T * locusT i + T * (1 - t) * (locusT (i + 1) - locusT i) = locusT i * locusT (i + 1) := by
      field_simp at he
      linarith
    have up : locusT (i + 1) - T ≤ 0.00631 * T := by
      have e : (locusT (i + 1) - T) * locusT i = T * (1 - t) * (locusT (i + 1) - locusT i) := by linarith
      have h3 : T * (1 - t) * (locusT (i + 1) - locusT i) ≤ T * 0.63 * (0.01001 * locusT i) := by
        refine mul_le_mul (mul_le_mul_of_nonneg_left ?_ hT.le) ?_ (by linarith) (by positivity)
        · norm_num at ht ⊢; linarith
        · norm_num at hr2 ⊢; linarith
      have : (locusT (i + 1) - T) * locusT i ≤ 0.00631 * T * locusT i := by
        rw [e]
        refine h3.trans ?_
        have : 0 < T * locusT i := by positivity
        norm_num
        nlinarith
      exact le_of_mul_le_mul_right this p0
    rw [abs_le] at ha ⊢
    norm_num at *
    constructor <;> linarith

/-- C155. It comes back in steps: of every temperature within 0.3 percent of that of a row the result is within 0.02 percent of the row's,
whatever the temperature was. -/
theorem cct_round_trip_steps {T : ℝ} {m : ℕ} (h1 : 2 ≤ m) (h2 : m ≤ 301) (hT : |T - locusT m| ≤ 0.003 * locusT m) (x : Xyy XR) (o : Uv60 XR)
    (hu : o.uInv = false) (hv : o.vInv = false) (o' : Cct XR) :
    ∃ (c : Uv60 XR) (r : Cct ℝ), clrCtUv60 x (fin T) .deg2 o = ok (0, c) ∧ clrUv60Cct .ohno2014 c o' = ok (0, r.emb) ∧
      |r.cct - locusT m| ≤ 0.0002 * locusT m := by
  obtain ⟨f0, f1, f2, f3, f4, -, -, -⟩ := locus_facts (m := m) (by omega) (by omega)
  have pm : 0 < locusT m := f0.trans f1
  have rp := (row_facts (m := m) (by omega) (by omega)).2
  have rq := (row_facts (m := m - 1) (by omega) (by omega)).2
  rw [show m - 1 + 1 = m by omega] at rq
  rw [abs_le] at hT
  have T0 : 0 < T := by norm_num at hT; linarith
  rcases le_total (locusT m) T with h | h
  · have d0 : 0 < locusT (m + 1) - locusT m := by linarith
    have p1 : 0 < locusT (m + 1) := by linarith
    obtain ⟨t, ht⟩ : ∃ t, locusT (m + 1) * (T - locusT m) / (T * (locusT (m + 1) - locusT m)) = t := ⟨_, rfl⟩
    have t0 : 0 ≤ t := by rw [← ht]; exact div_nonneg (mul_nonneg p1.le (by linarith)) (mul_nonneg T0.le d0.le)
    have t1 : t < 0.37 := by
      rw [← ht, div_lt_iff₀ (by positivity)]
      have a1 : T - locusT m ≤ 0.003 * T := by norm_num at hT ⊢; linarith
      have a2 : 0.0098 * locusT (m + 1) ≤ locusT (m + 1) - locusT m := by norm_num at rp ⊢; linarith
      have b1 := mul_le_mul_of_nonneg_left a1 p1.le
      have b2 := mul_le_mul_of_nonneg_left a2 T0.le
      have : 0 < T * locusT (m + 1) := by positivity
      norm_num at *
      nlinarith
    have he : 1 / T = (1 - t) / locusT m + t / locusT (m + 1) := by
      rw [← ht]
      have := d0.ne'
      field_simp
      ring
    obtain ⟨r, n, hr, ha, -, -, hn⟩ := trip_at (i := m) (by omega) h2 t0 (by norm_num at t1; linarith) T0 he o hu hv o'
    rcases hn with ⟨rfl, -⟩ | ⟨-, hc⟩
    · exact ⟨_, r, body_color T0 x o, hr, ha⟩
    · linarith
  · obtain ⟨i, rfl⟩ : ∃ i, m = i + 1 := ⟨m - 1, by omega⟩
    rw [Nat.add_sub_cancel] at f0 f1 f4 rq
    have d0 : 0 < locusT (i + 1) - locusT i := by linarith
    have hlow : locusT i ≤ T := by norm_num at hT rq; linarith
    obtain ⟨t, ht⟩ : ∃ t, locusT (i + 1) * (T - locusT i) / (T * (locusT (i + 1) - locusT i)) = t := ⟨_, rfl⟩
    have t0 : 0 ≤ t := by rw [← ht]; exact div_nonneg (mul_nonneg pm.le (by linarith)) (mul_nonneg T0.le d0.le)
    have t1 : t ≤ 1 := by
      rw [← ht, div_le_one (by positivity)]
      nlinarith
    have he : 1 / T = (1 - t) / locusT i + t / locusT (i + 1) := by
      rw [← ht]
      have := d0.ne'
      field_simp
      ring
    have t2 : 0.63 < t := by
      rw [← ht, lt_div_iff₀ (by positivity)]
      have a1 : locusT (i + 1) - T ≤ 0.0031 * T := by norm_num at hT ⊢; linarith
      have a2 : 0.0099 * locusT i ≤ locusT (i + 1) - locusT i := by norm_num at rq ⊢; linarith
      have b1 := mul_le_mul_of_nonneg_left a1 f0.le
      have b2 := mul_le_mul_of_nonneg_left a2 T0.le
      have : 0 < T * locusT i := by positivity
      norm_num at *
      nlinarith
    obtain ⟨r, n, hr, ha, -, -, hn⟩ := trip_at (i := i) (by omega) (by omega) t0 t1 T0 he o hu hv o'
    rcases hn with ⟨-, hc⟩ | ⟨rfl, -⟩
    · linarith
    · exact ⟨_, r, body_color T0 x o, hr, ha⟩

/-- C155. Halfway between two rows the error is at least 0.4 percent: the round trip is not exact, and not as fine as the table. -/
theorem cct_round_trip_coarse {i : ℕ} (i1 : 1 ≤ i) (i2 : i ≤ 301) (x : Xyy XR) (o : Uv60 XR) (hu : o.uInv = false) (hv : o.vInv = false) (o' : Cct XR) :
    ∃ (T : ℝ) (c : Uv60 XR) (r : Cct ℝ), locusT i < T ∧ T < locusT (i + 1) ∧ clrCtUv60 x (fin T) .deg2 o = ok (0, c) ∧
      clrUv60Cct .ohno2014 c o' = ok (0, r.emb) ∧ 0.004 * T ≤ |r.cct - T| := by
  have fi := locus_facts (m := i) i1 (by omega)
  have p0 : 0 < locusT i := fi.1.trans fi.2.1
  have lt : locusT i < locusT (i + 1) := fi.2.2.1
  have p1 : 0 < locusT (i + 1) := p0.trans lt
  have rp := (row_facts (m := i) i1 (by omega)).2
  obtain ⟨T, hT⟩ : ∃ T, 2 * locusT i * locusT (i + 1) / (locusT i + locusT (i + 1)) = T := ⟨_, rfl⟩
  have T0 : 0 < T := by rw [← hT]; positivity
  have hTe : T * (locusT i + locusT (i + 1)) = 2 * locusT i * locusT (i + 1) := by rw [← hT]; field_simp
  have he : 1 / T = (1 - 1 / 2) / locusT i + (1 / 2) / locusT (i + 1) := by
    rw [← hT]
    field_simp
    ring
  have l1 : locusT i < T := by nlinarith
  have l2 : T < locusT (i + 1) := by nlinarith
  obtain ⟨r, m, hr, ha, -, -, hm⟩ := trip_at i1 i2 (by norm_num) (by norm_num) T0 he o hu hv o'
  refine ⟨T, _, r, l1, l2, body_color T0 x o, hr, ?_⟩
  have d1 : 0.0049 * T ≤ T - locusT i := by
    have e : (T - locusT i) * (locusT i + locusT (i + 1)) = locusT i * (locusT (i + 1) - locusT i) := by linarith
    have : 0.0049 * T * (locusT i + locusT (i + 1)) ≤ (T - locusT i) * (locusT i + locusT (i + 1)) := by
      have e2 : 0.0049 * T * (locusT i + locusT (i + 1)) = 0.0098 * (locusT i * locusT (i + 1)) := by
        rw [mul_assoc, hTe]; norm_num; ring
      rw [e, e2]
      have : 0.0098 * locusT (i + 1) ≤ locusT (i + 1) - locusT i := by norm_num at rp ⊢; linarith
      have := mul_le_mul_of_nonneg_left this p0.le
      linarith
    exact le_of_mul_le_mul_right this (by positivity)
  have d2 : 0.0049 * T ≤ locusT (i + 1) - T := by
    have e : (locusT (i + 1) - T) * (locusT i + locusT (i + 1)) = locusT (i + 1) * (locusT (i + 1) - locusT i) := by linarith
    have : 0.0049 * T * (locusT i + locusT (i + 1)) ≤ (locusT (i + 1) - T) * (locusT i + locusT (i + 1)) := by
      have e2 : 0.0049 * T * (locusT i + locusT (i + 1)) = 0.0098 * (locusT i * locusT (i + 1)) := by
        rw [mul_assoc, hTe]; norm_num; ring
      rw [e, e2]
      have : 0.0098 * locusT i ≤ locusT (i + 1) - locusT i := by norm_num at rp ⊢; linarith
      have := mul_le_mul_of_nonneg_left this p1.le
      linarith
    exact le_of_mul_le_mul_right this (by positivity)
  rw [abs_le] at ha
  rcases hm with ⟨rfl, -⟩ | ⟨rfl, -⟩
  · rw [abs_sub_comm]
    refine le_trans ?_ (le_abs_self _)
    norm_num at *
    linarith
  · refine le_trans ?_ (le_abs_self _)
    have := fi.2.2.2.1
    norm_num at *
    linarith

/-- C155. The hypotheses are met: 6500 K. -/
example : ∃ (c : Uv60 XR) (r : Cct ℝ), clrCtUv60 ⟨lit 0, lit 0, lit 0, .deg2, .A, false, false, false⟩ (fin 6500) .deg2
      ⟨lit 0, lit 0, .deg2, .A, false, false⟩ = ok (0, c) ∧ clrUv60Cct .ohno2014 c ⟨lit 0, lit 0, false, false⟩ = ok (0, r.emb) ∧
      6457 ≤ r.cct ∧ r.cct ≤ 6543 := by
  obtain ⟨c, r, h1, h2, h3, -, -⟩ := cct_round_trip (T := 6500) (by norm_num) (by norm_num) ⟨lit 0, lit 0, lit 0, .deg2, .A, false, false, false⟩
    ⟨lit 0, lit 0, .deg2, .A, false, false⟩ rfl rfl ⟨lit 0, lit 0, false, false⟩
  refine ⟨c, r, h1, h2, ?_⟩
  rw [abs_le] at h3
  norm_num at h3
  constructor <;> linarith

end Verif
