import Verif.Props.Calib1

/-!
# C66: the gain searches
-/

namespace Verif

open Quaternion Matrix Out

theorem calRow_mat {n : ℕ} (junk : ℕ → XR) (A : Matrix (Fin n) (Fin 3) ℝ) (t : List XR) (j : Fin n) :
    calRow junk (mat A t) j = ok (vec (A j) []) := by
  unfold calRow
  rw [junkArr_eq, show mat A t = mtxOf (A.map XR.fin) t from rfl, mtx_get_row_correct, ok_bind]
  rfl

theorem lit_zero : (lit 0 : XR) = XR.fin 0 := by simp

/-- What the searches compare is never negative. -/
theorem calTotal_nonneg (n : ℕ) (x y : XR) : CReal.lt (calTotal n x y) (lit 0) = false := by
  have hs : ∀ z : XR, (∃ r, 0 ≤ r ∧ CReal.sqrt z = XR.fin r) ∨ CReal.sqrt z = XR.pinf ∨ CReal.sqrt z = XR.nan := by
    intro z
    cases z with
    | fin r =>
      by_cases h : r < 0
      · exact Or.inr (Or.inr (XR.fin_sqrt_neg h))
      · exact Or.inl ⟨_, Real.sqrt_nonneg r, XR.fin_sqrt (not_lt.1 h)⟩
    | pinf => exact Or.inr (Or.inl rfl)
    | ninf => exact Or.inr (Or.inr rfl)
    | nan => exact Or.inr (Or.inr rfl)
  have h2 : (lit 2 : XR) = XR.fin 2 := by simp
  unfold calTotal
  rw [lit_zero, h2]
  have hp : ∀ r : ℝ, XR.pinf + XR.fin r = XR.pinf ∧ XR.fin r + XR.pinf = XR.pinf := fun r => ⟨rfl, rfl⟩
  have hd : XR.pinf / XR.fin 2 = XR.pinf := by
    change XR.div _ _ = _
    simp [XR.div]
  rcases hs (x / CReal.ofNat n) with ⟨r, hr, h⟩ | h | h <;> rcases hs (y / CReal.ofNat n) with ⟨r', hr', h'⟩ | h' | h' <;> rw [h, h']
  · rw [XR.fin_add, XR.fin_div (by norm_num), Bool.eq_false_iff, ne_eq, XR.fin_lt, not_lt]
    positivity
  · rw [(hp r).2, hd]; rfl
  · rw [XR.add_nan, XR.nan_div, XR.nan_lt]
  · rw [(hp r').1, hd]; rfl
  · rw [show XR.pinf + XR.pinf = XR.pinf from rfl, hd]; rfl
  · rw [XR.add_nan, XR.nan_div, XR.nan_lt]
  all_goals rw [XR.nan_add, XR.nan_div, XR.nan_lt]

theorem calKeep_zero (i n : ℕ) (x y cand best : XR) : calKeep i (calTotal n x y) cand best = if i = 0 then cand else best := by
  unfold calKeep
  simp only [calTotal_nonneg]
  rfl

/-- One row fed to the Madgwick filter. -/
theorem madg_row (junk : ℕ → XR) {f : ℕ} (hf : 0 < f) (incl : Option ℝ) {beta : ℝ} (hb : 0 ≤ beta) (a m g : V3) (q : ℍ[ℝ]) :
    ∃ (rc : Int) (s : Sens XR) (a' : V3) (q' : ℍ[ℝ]), fusMadgFeed junk f (optFin incl) (XR.fin beta) ⟨some (vec a []), some (vec m []), vec g []⟩ (quat q) =
      ok (rc, s, quat q') ∧ s.a = some (vec a' []) := by
  by_cases hq : 1e-6 ≤ ‖q‖
  · by_cases ha : 1e-6 < len a
    · exact ⟨_, _, unitOf a, _, madg_feed_correct junk hf incl beta hb q hq a (some m) g ha, rfl⟩
    · exact ⟨_, _, a, _, madg_feed_gyro junk hf incl beta hb q hq ⟨some a, some m, g⟩
        (fun b hb => by obtain rfl : a = b := by simpa using hb
                        exact not_lt.1 ha), rfl⟩
  · refine ⟨_, _, a, _, madg_feed_rejects junk f (optFin incl) (XR.fin beta) _ (quat q) ?_, rfl⟩
    refine Or.inr (Or.inr (Or.inr (Or.inr ?_)))
    have h2 := quatIsZero_quat q
    unfold quatIsZero at h2
    rw [h2]
    simpa using hq

/-- One row fed to the Mahony filter. -/
theorem mahn_row (junk : ℕ → XR) {f : ℕ} (hf : 0 < f) (incl : Option ℝ) (c : MahnSet) (hp : 0 ≤ c.kp) (hi : 0 ≤ c.ki) (a m g : V3) (q : ℍ[ℝ]) :
    ∃ (rc : Int) (s : Sens XR) (fb a' : V3) (q' : ℍ[ℝ]), fusMahnFeed junk f (optFin incl) ⟨some (vec a []), some (vec m []), vec g []⟩ c.cfg (quat q) =
      ok (rc, s, MahnSet.cfg { c with fb := fb }, quat q') ∧ s.a = some (vec a' []) := by
  by_cases hq : 1e-6 ≤ ‖q‖
  · by_cases ha : 1e-6 < len a
    · exact ⟨_, _, _, unitOf a, _, mahn_feed_correct junk hf incl c hp hi q hq a (some m) g ha, rfl⟩
    · exact ⟨_, _, c.fb, a, _, mahn_feed_gyro junk hf incl c hp hi q hq ⟨some a, some m, g⟩
        (fun b hb => by obtain rfl : a = b := by simpa using hb
                        exact not_lt.1 ha), rfl⟩
  · refine ⟨_, _, c.fb, a, _, mahn_feed_rejects junk f (optFin incl) _ c.cfg (quat q) ?_, rfl⟩
    refine Or.inr (Or.inr (Or.inr (Or.inr (Or.inr (Or.inr ?_)))))
    have h2 := quatIsZero_quat q
    unfold quatIsZero at h2
    rw [h2]
    simpa using hq

theorem quatIdentity_quat : (quatIdentity : Quat XR) = quat 1 := by
  simp [quatIdentity, quat]

theorem calMadgError_ok {n : ℕ} (junk : ℕ → XR) {f : ℕ} (hf : 0 < f) (incl : Option ℝ) (G A M : Matrix (Fin n) (Fin 3) ℝ) (s t u : List XR)
    {beta : ℝ} (hb : 0 ≤ beta) :
    ∃ x y : XR, calMadgError junk f (optFin incl) (mat G s) (mat A t) (mat M u) (XR.fin beta) = ok (calTotal n x y) := by
  unfold calMadgError
  have key := forN_sat (n := n) (f := fun j (s' : Quat XR × XR × XR) => do
    let gv ← calRow junk (mat G s) j
    let av ← calRow junk (mat A t) j
    let mv ← calRow junk (mat M u) j
    let (_, sens, q) ← fusMadgFeed junk f (optFin incl) (XR.fin beta) ⟨some av, some mv, gv⟩ s'.1
    let av ← sensVec sens.a
    let (Sx, Sy) ← calTilt junk q av s'.2.1 s'.2.2
    return (q, Sx, Sy)) (s := (quatIdentity, lit 0, lit 0)) (fun _ (s : Quat XR × XR × XR) => ∃ q, s.1 = quat q)
    ⟨1, quatIdentity_quat⟩ (by
      rintro i hi ⟨q0, x, y⟩ ⟨q, rfl⟩
      obtain ⟨rc, s', a', q', hfeed, ha'⟩ := madg_row junk hf incl hb (A ⟨i, hi⟩) (M ⟨i, hi⟩) (G ⟨i, hi⟩) q
      have h1 := calRow_mat junk G s ⟨i, hi⟩
      have h2 := calRow_mat junk A t ⟨i, hi⟩
      have h3 := calRow_mat junk M u ⟨i, hi⟩
      simp only at h1 h2 h3
      rw [h1, ok_bind, h2, ok_bind, h3, ok_bind, hfeed, ok_bind]
      simp only [ha', sensVec, ok_bind]
      unfold calTilt
      rw [attFromAccel_vec, ok_bind]
      exact (sat_ok _ _).mpr ⟨q', rfl⟩)
  obtain ⟨st, hst, -⟩ := key
  refine ⟨st.2.1, st.2.2, ?_⟩
  rw [mat_rows]
  refine Eq.trans (congrArg (fun x => x >>= _) hst) ?_
  rfl

theorem calMahnError_ok {n : ℕ} (junk : ℕ → XR) {f : ℕ} (hf : 0 < f) (incl : Option ℝ) (G A M : Matrix (Fin n) (Fin 3) ℝ) (s t u : List XR)
    {kp : ℝ} (hp : 0 ≤ kp) (fb : V3) :
    ∃ (x y : XR) (fb' : V3), calMahnError junk f (optFin incl) (mat G s) (mat A t) (mat M u) (XR.fin kp) (vec fb []) =
      ok (calTotal n x y, vec fb' []) := by
  unfold calMahnError
  have hl2 : (lit 0.02 : XR) = XR.fin 0.02 := by rw [XR.lit_eq]; norm_num
  have key := forN_sat (n := n) (f := fun j (s' : Quat XR × Vec XR × XR × XR) => do
    let gv ← calRow junk (mat G s) j
    let av ← calRow junk (mat A t) j
    let mv ← calRow junk (mat M u) j
    let (_, sens, c, q) ← fusMahnFeed junk f (optFin incl) ⟨some av, some mv, gv⟩ ⟨XR.fin kp, lit 0.02, lit 0, s'.2.1⟩ s'.1
    let av ← sensVec sens.a
    let (Sx, Sy) ← calTilt junk q av s'.2.2.1 s'.2.2.2
    return (q, c.intfb, Sx, Sy)) (s := (quatIdentity, vec fb [], lit 0, lit 0))
    (fun _ (s : Quat XR × Vec XR × XR × XR) => ∃ q fb', s.1 = quat q ∧ s.2.1 = vec fb' [])
    ⟨1, fb, quatIdentity_quat, rfl⟩ (by
      rintro i hi ⟨q0, fb0, x, y⟩ ⟨q, fb1, rfl, rfl⟩
      obtain ⟨rc, s', fb', a', q', hfeed, ha'⟩ :=
        mahn_row junk hf incl ⟨kp, 0.02, 0, fb1⟩ hp (by norm_num) (A ⟨i, hi⟩) (M ⟨i, hi⟩) (G ⟨i, hi⟩) q
      have h1 := calRow_mat junk G s ⟨i, hi⟩
      have h2 := calRow_mat junk A t ⟨i, hi⟩
      have h3 := calRow_mat junk M u ⟨i, hi⟩
      simp only [MahnSet.cfg] at h1 h2 h3 hfeed
      rw [h1, ok_bind, h2, ok_bind, h3, ok_bind, hl2, lit_zero]
      simp only
      rw [hfeed, ok_bind]
      simp only [ha', sensVec, ok_bind]
      unfold calTilt
      rw [attFromAccel_vec, ok_bind]
      exact (sat_ok _ _).mpr ⟨q', fb', rfl, rfl⟩)
  obtain ⟨st, hst, q, fb', -, hfb⟩ := key
  refine ⟨st.2.2.1, st.2.2.2, fb', ?_⟩
  rw [mat_rows]
  refine Eq.trans (congrArg (fun x => x >>= _) hst) ?_
  rw [ok_bind, hfb]
  rfl

theorem realToU32_fin {x : ℝ} (h1 : 1 ≤ x) (h2 : x < 4294967296) : ∃ f : ℕ, 0 < f ∧ realToU32 (XR.fin x) = ok f := by
  have h0 : (1 : ℤ) ≤ ⌊x⌋ := Int.le_floor.2 (by exact_mod_cast h1)
  have h3 : ⌊x⌋ < 4294967296 := Int.floor_lt.2 (by exact_mod_cast h2)
  refine ⟨⌊x⌋.toNat, by omega, ?_⟩
  unfold realToU32
  have : CReal.trunc (XR.fin x) = some ⌊x⌋ := by
    change XR.trunc (XR.fin x) = _
    simp only [XR.trunc]
    rw [if_pos (by linarith)]
  rw [this]
  simp only
  rw [if_pos ⟨by omega, h3⟩]

/-- C66. For every data set `zsl_fus_cal_madg` returns 0 and the gain 0: the best error so far is reset to zero for each candidate, and no
error is below zero. -/
theorem cal_madg_zero {n : ℕ} (junk : ℕ → XR) (old : ℕ) (incl : Option ℝ) (G A M : Matrix (Fin n) (Fin 3) ℝ) (s t u : List XR) (freq : ℝ)
    (h1 : 1 ≤ freq) (h2 : freq < 4294967296) (beta : XR) :
    calMadg junk old (mat G s) (mat A t) (mat M u) (XR.fin freq) (optFin incl) beta = ok (0, XR.fin 0) := by
  obtain ⟨f, hf, hu⟩ := realToU32_fin h1 h2
  unfold calMadg
  rw [if_neg (by simp; linarith), hu, ok_bind]
  have hi : fusInit f old = (0, f) := by rw [fus_init_correct, if_neg hf.ne']
  simp only [hi]
  have hloop := forN_eq (n := 1000) (f := fun i beta => do
      let cand := CReal.ofNat i / lit 1000
      let St ← calMadgError junk f (optFin incl) (mat G s) (mat A t) (mat M u) cand
      return calKeep i St cand beta) (s := beta) (fun i => if i = 0 then beta else XR.fin 0) rfl (by
    intro i hi
    have hc : (CReal.ofNat i / lit 1000 : XR) = XR.fin (i / 1000) := by
      rw [XR.ofNat_eq, XR.lit_eq, XR.fin_div (by norm_num)]; norm_num
    obtain ⟨x, y, h⟩ := calMadgError_ok junk hf incl G A M s t u (beta := i / 1000) (by positivity)
    simp only [hc]
    rw [h, ok_bind, calKeep_zero, if_neg (Nat.succ_ne_zero i)]
    by_cases h0 : i = 0 <;> simp [h0])
  refine Eq.trans (congrArg (fun x => x >>= _) hloop) ?_
  rfl

/-- C66. Likewise `zsl_fus_cal_mahn`. -/
theorem cal_mahn_zero {n : ℕ} (junk : ℕ → XR) (old : ℕ) (incl : Option ℝ) (G A M : Matrix (Fin n) (Fin 3) ℝ) (s t u : List XR) (freq : ℝ)
    (h1 : 1 ≤ freq) (h2 : freq < 4294967296) (kp : XR) :
    calMahn junk old (mat G s) (mat A t) (mat M u) (XR.fin freq) (optFin incl) kp = ok (0, XR.fin 0) := by
  obtain ⟨f, hf, hu⟩ := realToU32_fin h1 h2
  unfold calMahn
  rw [if_neg (by simp; linarith), hu, ok_bind]
  have hi : fusInit f old = (0, f) := by rw [fus_init_correct, if_neg hf.ne']
  simp only [hi]
  have hloop := forN_sat (n := 1000) (f := fun i (s' : XR × Vec XR) => do
      let cand := CReal.ofNat i / lit 1000
      let (St, fb) ← calMahnError junk f (optFin incl) (mat G s) (mat A t) (mat M u) cand s'.2
      return (calKeep i St cand s'.1, fb)) (s := (kp, ⟨3, [lit 0, lit 0, lit 0]⟩))
      (fun i (s : XR × Vec XR) => (0 < i → s.1 = XR.fin 0) ∧ ∃ fb : V3, s.2 = vec fb [])
      ⟨fun h => absurd h (lt_irrefl _), 0, by rw [lit_zero]; exact vec3_mk 0 0 0 |>.trans (by congr; ext i; fin_cases i <;> rfl)⟩ (by
    rintro i hi ⟨k, fb0⟩ ⟨hk, fb, rfl⟩
    have hc : (CReal.ofNat i / lit 1000 : XR) = XR.fin (i / 1000) := by
      rw [XR.ofNat_eq, XR.lit_eq, XR.fin_div (by norm_num)]; norm_num
    obtain ⟨x, y, fb', h⟩ := calMahnError_ok junk hf incl G A M s t u (kp := i / 1000) (by positivity) fb
    simp only [hc]
    rw [h, ok_bind]
    refine (sat_ok _ _).mpr ⟨fun _ => ?_, fb', rfl⟩
    simp only [calKeep_zero]
    by_cases h0 : i = 0
    · simp [h0]
    · rw [if_neg h0]
      exact hk (Nat.pos_of_ne_zero h0))
  obtain ⟨st, hst, hz, -⟩ := hloop
  refine Eq.trans (congrArg (fun x => x >>= _) hst) ?_
  rw [ok_bind, hz (by norm_num)]
  rfl

/-! ### One sample for which the gain 0 is not the best -/

/-- The accelerometer lies on its side. -/
def sideways : V3 := ![0, 1, 0]

theorem len_sideways : len sideways = 1 := by
  simp [len, sideways, dotProduct, Fin.sum_univ_three]

theorem unit_sideways : unitOf sideways = sideways := unitOf_of_len len_sideways

theorem roll_sideways : rollOf sideways = Real.pi / 2 := by
  unfold rollOf
  rw [unit_sideways]
  have : (⟨sideways 2, sideways 1⟩ : ℂ) = Complex.I := by simp [sideways, Complex.ext_iff]
  rw [this, Complex.arg_I]

theorem pitch_sideways : pitchOf sideways = 0 := by
  unfold pitchOf
  rw [unit_sideways]
  have : (⟨Real.sqrt (sideways 1 * sideways 1 + sideways 2 * sideways 2), -sideways 0⟩ : ℂ) = 1 := by simp [sideways, Complex.ext_iff]
  rw [this, Complex.arg_one]

/-- The accumulated error after one sample with the device on its side, at the roll angle `x`. -/
noncomputable def sideErr (x : ℝ) : ℝ := |x * (180 / 3.14159265359) - Real.pi / 2 * 57.295779513| / 2

theorem sideTilt (junk : ℕ → XR) {q : ℍ[ℝ]} (h : ‖q‖ = 1) (hj : q.imJ = 0) (hk : q.imK = 0) :
    ∃ s : XR × XR, calTilt junk (quat q) (vec sideways []) (lit 0) (lit 0) = ok s ∧
      calTotal 1 s.1 s.2 = XR.fin (sideErr (Complex.arg ⟨rotOf q 2 2, -rotOf q 1 2⟩)) := by
  have h02 : rotOf q 0 2 = 0 := by simp [rotOf, hj, hk]
  unfold calTilt
  rw [attFromAccel_vec, ok_bind, quatToEuler_quat h (by rw [h02]; norm_num) (by rw [h02]; norm_num), h02, roll_sideways, pitch_sideways]
  set x := Complex.arg ⟨rotOf q 2 2, -rotOf q 1 2⟩
  have hp : (lit 180 / zslPi : XR) = XR.fin (180 / 3.14159265359) := by
    rw [lit_pi, XR.lit_eq, XR.fin_div (by norm_num)]; norm_num
  refine ⟨_, rfl, ?_⟩
  simp only [hp, degrees, lit_zero, XR.fin_mul, XR.fin_sub, XR.fin_add, Real.arcsin_zero, zero_mul, sub_zero, mul_zero, zero_add, add_zero]
  unfold calTotal
  rw [XR.ofNat_eq, XR.fin_div (by norm_num), XR.fin_div (by norm_num), Nat.cast_one, div_one, div_one,
    XR.fin_sqrt (mul_self_nonneg _), XR.fin_sqrt le_rfl, Real.sqrt_zero, Real.sqrt_mul_self_eq_abs, XR.fin_add, add_zero, XR.lit_eq,
    XR.fin_div (by norm_num)]
  simp [sideErr]

theorem arg_tilt {q : ℍ[ℝ]} (hj : q.imJ = 0) (hk : q.imK = 0) (hr : 0 < q.re) (hi : q.imI < 0) :
    Complex.arg ⟨rotOf q 2 2, -rotOf q 1 2⟩ < 0 := by
  rw [Complex.arg_neg_iff]
  simp [rotOf, hj, hk]
  nlinarith

theorem arg_tilt_one : Complex.arg ⟨rotOf 1 2 2, -rotOf 1 1 2⟩ = 0 := by
  have : (⟨rotOf 1 2 2, -rotOf 1 1 2⟩ : ℂ) = 1 := by simp [rotOf, Complex.ext_iff]
  rw [this, Complex.arg_one]

theorem sideErr_lt {x : ℝ} (h : x < 0) : sideErr 0 < sideErr x := by
  have hpi := Real.pi_pos
  unfold sideErr
  rw [zero_mul, zero_sub, abs_neg, abs_of_pos (by positivity), abs_of_neg (by
    have : x * (180 / 3.14159265359) < 0 := mul_neg_of_neg_of_pos h (by norm_num)
    have : 0 < Real.pi / 2 * 57.295779513 := by positivity
    linarith)]
  have : x * (180 / 3.14159265359) < 0 := mul_neg_of_neg_of_pos h (by norm_num)
  linarith

/-- One sample of a data set. -/
def oneRow (v : V3) : Mtx XR := mat (Matrix.of fun (_ : Fin 1) => v) []

theorem calRow_one (junk : ℕ → XR) (v : V3) : calRow junk (oneRow v) 0 = ok (vec v []) := calRow_mat junk _ [] (0 : Fin 1)

theorem madgError_one (junk : ℕ → XR) {beta : ℝ} (hb : 0 ≤ beta) (g : V3) {q : ℍ[ℝ]}
    (hq : q = madgStep 1 beta g (madgDir none 1 sideways (some 0)) 1) (h : ‖q‖ = 1) (hj : q.imJ = 0) (hk : q.imK = 0) :
    calMadgError junk 1 none (oneRow g) (oneRow sideways) (oneRow 0) (XR.fin beta) =
      ok (XR.fin (sideErr (Complex.arg ⟨rotOf q 2 2, -rotOf q 1 2⟩))) := by
  obtain ⟨s, hs, hc⟩ := sideTilt junk h hj hk
  have hd : direction (1 : ℍ[ℝ]) = 1 := direction_of_norm_one (by simp)
  have hfeed := madg_feed_correct junk (f := 1) (by norm_num) none beta hb 1 (by norm_num) sideways (some 0) g (by rw [len_sideways]; norm_num)
  rw [hd, ← hq, unit_sideways] at hfeed
  unfold calMadgError
  rw [show (oneRow sideways).rows = 1 from rfl, forN_succ, forN_zero, ok_bind, calRow_one, ok_bind, calRow_one, ok_bind, calRow_one, ok_bind,
    quatIdentity_quat]
  simp only
  refine Eq.trans (congrArg (fun x => (x >>= _) >>= _) hfeed) ?_
  simp only [ok_bind, Reading.sens, sensor, Option.map_some, sensVec]
  rw [hs]
  simp only [ok_bind, pure_eq]
  rw [hc]

/-- C66. The claim fails for `zsl_fus_cal_madg`: with one sample, taken at 1 Hz with the device on its side, turning with -1.5 rad/s about the
first axis and without a magnetic field, the candidate 0.6 has a smaller error than 0, but 0 is returned. -/
theorem cal_madg_not_best (junk : ℕ → XR) (old : ℕ) (beta : XR) :
    ∃ e0 e : ℝ, calMadgError junk 1 none (oneRow ![-1.5, 0, 0]) (oneRow sideways) (oneRow 0) (XR.fin 0) = ok (XR.fin e0) ∧
      calMadgError junk 1 none (oneRow ![-1.5, 0, 0]) (oneRow sideways) (oneRow 0) (XR.fin 0.6) = ok (XR.fin e) ∧ e < e0 ∧
      calMadg junk old (oneRow ![-1.5, 0, 0]) (oneRow sideways) (oneRow 0) (XR.fin 1) none beta = ok (0, XR.fin 0) := by
  have hd1 : direction (1 : ℍ[ℝ]) = 1 := direction_of_norm_one (by simp)
  have hdir : madgDir none 1 sideways (some 0) = ![0, -1, 0, 0] := by
    have hl : len (0 : V3) < 1e-6 := by simp [len]; norm_num
    have hv : jacG 1 *ᵥ (turned 1 up - unitOf sideways) = ![0, -2, 0, 0] := by
      rw [turned_one, unit_sideways]
      ext i
      fin_cases i <;> simp [jacG, up, sideways, Matrix.mulVec, dotProduct, Fin.sum_univ_three]
    unfold madgDir
    simp only [if_pos hl, hv]
    have hs : Real.sqrt ((![0, -2, 0, 0] : Fin 4 → ℝ) ⬝ᵥ ![0, -2, 0, 0]) = 2 := by
      rw [show (![0, -2, 0, 0] : Fin 4 → ℝ) ⬝ᵥ ![0, -2, 0, 0] = 2 ^ 2 by simp [dotProduct, Fin.sum_univ_four]; norm_num]
      exact Real.sqrt_sq (by norm_num)
    unfold unitOf
    rw [if_neg (by
      intro h
      have := congrFun h 1
      simp at this), hs]
    ext i
    fin_cases i <;> simp
  have hstep : eulerStep 1 ![-1.5, 0, 0] 1 = hq 0.8 (-0.6) 0 0 := by
    unfold eulerStep
    have : (1 + (1 / (2 * ((1 : ℕ) : ℝ))) • pureQ ![-1.5, 0, 0]) * direction (1 : ℍ[ℝ]) = hq 1 (-0.75) 0 0 := by
      rw [hd1]
      ext <;> simp [pureQ] <;> norm_num
    rw [this]
    have hn : ‖hq 1 (-0.75) 0 0‖ = 1.25 := by
      have h := norm_sq_quat (hq 1 (-0.75) 0 0)
      simp at h
      have h0 := norm_nonneg (hq 1 (-0.75) 0 0)
      nlinarith
    unfold direction
    rw [if_neg (by rw [hn]; norm_num), hn]
    ext <;> simp <;> norm_num
  have hq0 : hq 0.8 (-0.6) 0 0 = madgStep 1 0 ![-1.5, 0, 0] (madgDir none 1 sideways (some 0)) 1 := by
    have hn : ‖hq 0.8 (-0.6) 0 0‖ = 1 := by
      have h := norm_sq_quat (hq 0.8 (-0.6) 0 0)
      simp at h
      have h0 := norm_nonneg (hq 0.8 (-0.6) 0 0)
      nlinarith
    unfold madgStep
    rw [hstep, mul_zero, zero_smul, sub_zero, direction_of_norm_one hn]
  have hq6 : (1 : ℍ[ℝ]) = madgStep 1 0.6 ![-1.5, 0, 0] (madgDir none 1 sideways (some 0)) 1 := by
    unfold madgStep
    rw [hstep, hdir]
    have : hq 0.8 (-0.6) 0 0 - (1 / ((1 : ℕ) : ℝ) * 0.6) • quat4 ![0, -1, 0, 0] = hq 0.8 0 0 0 := by
      ext <;> simp [quat4]
    rw [this]
    have hn : ‖hq 0.8 0 0 0‖ = 0.8 := by
      have h := norm_sq_quat (hq 0.8 0 0 0)
      simp at h
      have h0 := norm_nonneg (hq 0.8 0 0 0)
      nlinarith
    unfold direction
    rw [if_neg (by rw [hn]; norm_num), hn]
    ext <;> simp
    norm_num
  have hn0 : ‖hq 0.8 (-0.6) 0 0‖ = 1 := by
    have h := norm_sq_quat (hq 0.8 (-0.6) 0 0)
    simp at h
    have h0 := norm_nonneg (hq 0.8 (-0.6) 0 0)
    nlinarith
  refine ⟨_, _, madgError_one junk le_rfl _ hq0 hn0 rfl rfl, madgError_one junk (by norm_num) _ hq6 (by simp) (by simp) (by simp), ?_,
    cal_madg_zero junk old none _ _ _ [] [] [] 1 le_rfl (by norm_num) beta⟩
  rw [arg_tilt_one]
  exact sideErr_lt (arg_tilt rfl rfl (by norm_num [hq]) (by norm_num [hq]))

theorem mahnError_one (junk : ℕ → XR) {kp : ℝ} (hp : 0 ≤ kp) (g : V3) {q : ℍ[ℝ]}
    (hq : q = eulerStep 1 (mahnRate 1 ⟨kp, 0.02, 0, 0⟩ (mahnErr none 1 sideways (some 0)) g) 1) (h : ‖q‖ = 1) (hj : q.imJ = 0) (hk : q.imK = 0) :
    calMahnError junk 1 none (oneRow g) (oneRow sideways) (oneRow 0) (XR.fin kp) (vec (0 : V3) []) =
      ok (XR.fin (sideErr (Complex.arg ⟨rotOf q 2 2, -rotOf q 1 2⟩)), vec (0 : V3) []) := by
  obtain ⟨s, hs, hc⟩ := sideTilt junk h hj hk
  have hl2 : (lit 0.02 : XR) = XR.fin 0.02 := by rw [XR.lit_eq]; norm_num
  have hfeed := mahn_feed_correct junk (f := 1) (by norm_num) none ⟨kp, 0.02, 0, 0⟩ hp (by norm_num) 1 (by norm_num) sideways (some 0) g
    (by rw [len_sideways]; norm_num)
  rw [← hq, unit_sideways] at hfeed
  have hfb : ∀ e : V3, mahnFb 1 ⟨kp, 0.02, 0, 0⟩ e = 0 := by
    intro e
    ext i
    have := abs_clampR (x := (0 : V3) i + e i * (1 / ((1 : ℕ) : ℝ))) (le_refl (0 : ℝ))
    exact abs_nonpos_iff.1 this
  rw [hfb] at hfeed
  unfold calMahnError
  rw [show (oneRow sideways).rows = 1 from rfl, forN_succ, forN_zero, ok_bind, calRow_one, ok_bind, calRow_one, ok_bind, calRow_one, ok_bind,
    quatIdentity_quat, hl2, show (lit 0 : XR) = XR.fin 0 from lit_zero]
  rw [show (lit 0 : XR) = XR.fin 0 from lit_zero] at hs
  simp only
  refine Eq.trans (congrArg (fun x => (x >>= _) >>= _) hfeed) ?_
  simp only [ok_bind, Reading.sens, sensor, Option.map_some, sensVec]
  rw [hs]
  simp only [ok_bind, pure_eq]
  rw [hc]
  rfl

/-- C66. The claim fails for `zsl_fus_cal_mahn`: with one sample, taken at 1 Hz with the device on its side, turning with -0.6 rad/s about the
first axis and without a magnetic field, the candidate 0.6 has a smaller error than 0, but 0 is returned. -/
theorem cal_mahn_not_best (junk : ℕ → XR) (old : ℕ) (kp : XR) :
    ∃ e0 e : ℝ, calMahnError junk 1 none (oneRow ![-0.6, 0, 0]) (oneRow sideways) (oneRow 0) (XR.fin 0) (vec (0 : V3) []) =
        ok (XR.fin e0, vec (0 : V3) []) ∧
      calMahnError junk 1 none (oneRow ![-0.6, 0, 0]) (oneRow sideways) (oneRow 0) (XR.fin 0.6) (vec (0 : V3) []) =
        ok (XR.fin e, vec (0 : V3) []) ∧ e < e0 ∧
      calMahn junk old (oneRow ![-0.6, 0, 0]) (oneRow sideways) (oneRow 0) (XR.fin 1) none kp = ok (0, XR.fin 0) := by
  have hd1 : direction (1 : ℍ[ℝ]) = 1 := direction_of_norm_one (by simp)
  have herr : mahnErr none 1 sideways (some 0) = ![1, 0, 0] := by
    have hl : len (0 : V3) < 1e-6 := by simp [len]; norm_num
    unfold mahnErr
    simp only [if_pos hl]
    rw [turned_one, unit_sideways]
    ext i
    fin_cases i <;> simp [cross_apply, sideways, up]
  have hrate : ∀ kp : ℝ, mahnRate 1 ⟨kp, 0.02, 0, 0⟩ (mahnErr none 1 sideways (some 0)) ![-0.6, 0, 0] = ![-0.6 + kp, 0, 0] := by
    intro kp
    have hfb : mahnFb 1 ⟨kp, 0.02, 0, 0⟩ ![1, 0, 0] = 0 := by
      ext i
      have := abs_clampR (x := (0 : V3) i + (![1, 0, 0] : V3) i * (1 / ((1 : ℕ) : ℝ))) (le_refl (0 : ℝ))
      exact abs_nonpos_iff.1 this
    rw [herr]
    unfold mahnRate
    rw [hfb]
    ext i
    fin_cases i <;> simp
  have hn : (1 : ℝ) ≤ ‖hq 1 (-0.3) 0 0‖ := by
    have h := norm_sq_quat (hq 1 (-0.3) 0 0)
    simp at h
    have h0 := norm_nonneg (hq 1 (-0.3) 0 0)
    nlinarith
  have hq0 : ‖hq 1 (-0.3) 0 0‖⁻¹ • hq 1 (-0.3) 0 0 =
      eulerStep 1 (mahnRate 1 ⟨0, 0.02, 0, 0⟩ (mahnErr none 1 sideways (some 0)) ![-0.6, 0, 0]) 1 := by
    rw [hrate]
    unfold eulerStep
    have : (1 + (1 / (2 * ((1 : ℕ) : ℝ))) • pureQ ![-0.6 + 0, 0, 0]) * direction (1 : ℍ[ℝ]) = hq 1 (-0.3) 0 0 := by
      rw [hd1]
      ext <;> simp [pureQ]
      norm_num
    rw [this]
    unfold direction
    rw [if_neg (by linarith)]
  have hq6 : (1 : ℍ[ℝ]) = eulerStep 1 (mahnRate 1 ⟨0.6, 0.02, 0, 0⟩ (mahnErr none 1 sideways (some 0)) ![-0.6, 0, 0]) 1 := by
    rw [hrate]
    unfold eulerStep
    have : (1 + (1 / (2 * ((1 : ℕ) : ℝ))) • pureQ ![-0.6 + 0.6, 0, 0]) * direction (1 : ℍ[ℝ]) = 1 := by
      rw [hd1]
      ext <;> simp [pureQ]
    rw [this, hd1]
  have hn0 : ‖‖hq 1 (-0.3) 0 0‖⁻¹ • hq 1 (-0.3) 0 0‖ = 1 := by
    rw [norm_smul, norm_inv, norm_norm, inv_mul_cancel₀ (by linarith)]
  refine ⟨_, _, mahnError_one junk le_rfl _ hq0 hn0 (by simp) (by simp),
    mahnError_one junk (by norm_num) _ hq6 (by simp) (by simp) (by simp), ?_,
    cal_mahn_zero junk old none _ _ _ [] [] [] 1 le_rfl (by norm_num) kp⟩
  rw [arg_tilt_one]
  have hpos : (0 : ℝ) < ‖hq 1 (-0.3) 0 0‖⁻¹ := by positivity
  refine sideErr_lt (arg_tilt (by simp) (by simp) (by simpa using hpos) ?_)
  simp only [imI_smul, smul_eq_mul]
  exact mul_neg_of_pos_of_neg hpos (by norm_num [hq])

/-- C66. Data matrices that do not have three columns or the same number of rows, and a negative frequency, are refused; the gain is not
touched. For every scalar type. -/
theorem cal_gain_rejects {R : Type} [CReal R] (junk : ℕ → R) (old : ℕ) (g a m : Mtx R) (freq : R) (incl : Option R) (x : R)
    (h : g.cols ≠ 3 ∨ a.cols ≠ 3 ∨ m.cols ≠ 3 ∨ CReal.lt freq (lit 0) = true ∨ g.rows ≠ a.rows ∨ g.rows ≠ m.rows) :
    calMadg junk old g a m freq incl x = ok (-EINVAL, x) ∧ calMahn junk old g a m freq incl x = ok (-EINVAL, x) := by
  unfold calMadg calMahn
  rw [if_pos h, if_pos h]
  exact ⟨rfl, rfl⟩

example : calMadg (fun _ => XR.nan) 0 (oneRow 0) (oneRow 0) (oneRow 0) (XR.fin (-5)) none (XR.fin 7) = ok (-EINVAL, XR.fin 7) :=
  (cal_gain_rejects _ _ _ _ _ _ _ _ (Or.inr (Or.inr (Or.inr (Or.inl (by simp)))))).1

end Verif
