import Verif.Props.Round1
import Verif.Props.Stat2
import Verif.Spec.Nearest

/-!
# Rounding errors of the statistics functions (C128, C129)

The floating point model and `gam`, `Near`, `Close` are those of C124. Two-pass formulas (variance, covariance) stay accurate and keep
their signs; the one-pass formula of the linear regression does not.
-/

namespace Verif

open Out

variable {n : ℕ}

/-- The bound for the error of the computed mean of `x`. -/
noncomputable def meanErr (F : Rounding) (x : Fin n → ℝ) : ℝ := gam F.u (n + 2) * meanOf fun i => |x i|

theorem staDemean_F (F : Rounding) (x : Fin n → ℝ) (hn : 0 < n) (m0 : FX F) (y : Fin n → FX F) (t u : List (FX F)) :
    ∃ m : ℝ, |m - meanOf x| ≤ meanErr F x ∧ vecArMean (vecF F x t) m0 = ok (0, FX.of F m) ∧
      staDemean m0 (vecF F x t) (vecOf y u) = ok (0, vecF F (fun i => F.rnd (x i - m)) u) := by
  obtain ⟨m, e, -, h⟩ := vec_ar_mean_rounding F x hn t m0
  refine ⟨m, h, e, ?_⟩
  have h2 := (vec_elementwise_rounding F x x (-m) (fun _ => lit 0) u u u).2.2.1
  rw [staDemean, if_neg (by simp [vecF]), vecF, vecCopy_vec, ok_bind]
  dsimp only
  rw [staMean, ← vecF, e, ok_bind]
  dsimp only [pure_eq]
  rw [ok_bind, FX.of_neg, ← vecF, h2]
  rfl

theorem out_inv {α β : Type} {x : Out α} {f : α → Out β} {b : β} (h : x >>= f = ok b) : ∃ a, x = ok a ∧ f a = ok b := by
  cases x with
  | ok a => exact ⟨a, rfl, h⟩
  | ub => exact absurd h (by simp)

/-- The products of two lists of rounded differences, summed and divided by `n - 1`. -/
theorem covar_F (F : Rounding) (x y : Fin n → ℝ) (mx my : ℝ) (hn : 2 ≤ n) :
    ∃ c : ℝ, (forN n (fun i s => do
      let a ← rd (vecF F (fun i => F.rnd (x i - mx)) []).data i
      let b ← rd (vecF F (fun i => F.rnd (y i - my)) []).data i
      return s + a * b) (lit 0) >>= fun s => (return ((0 : Int), s / CReal.ofNat (szSub n 1)) : Out (Int × FX F))) = ok (0, FX.of F c) ∧
      ∃ w : Fin n → ℝ, (∀ i, Close F.u (n + 4) (w i)) ∧ c = (∑ i, (x i - mx) * (y i - my) * w i) / ((n : ℝ) - 1) := by
  obtain ⟨w, hw, e⟩ := vecDot_F F (fun i => F.rnd (x i - mx)) (fun i => F.rnd (y i - my)) [] [] (lit 0)
  rw [vecDot, if_neg (by simp [vecF]), show (vecF F (fun i => F.rnd (x i - mx)) []).sz = n from rfl] at e
  obtain ⟨s, hs, e⟩ := out_inv e
  have hs' : s = FX.of F (∑ i, F.rnd (x i - mx) * F.rnd (y i - my) * w i) := by
    simpa using e
  rw [hs, ok_bind, hs', FX.ofNat_eq, szSub_one_cast hn]
  have h1 := sub_one_pos hn
  obtain ⟨a, ha, ea⟩ := F.near ((n : ℝ) - 1)
  rw [FX.of_div (F.rnd_ne_zero h1.ne')]
  choose v hv ev using fun i => F.near (x i - mx)
  choose v' hv' ev' using fun i => F.near (y i - my)
  obtain ⟨b, hb, eb⟩ := F.near ((∑ i, F.rnd (x i - mx) * F.rnd (y i - my) * w i) / F.rnd ((n : ℝ) - 1))
  have ha0 := (ha.pos F.u_nonneg F.u_lt).ne'
  refine ⟨_, rfl, fun i => w i * ((v i * v' i) * (a⁻¹ * b)), fun i => ?_, ?_⟩
  · exact (hw i).mul' F (((hv i).mul' F (hv' i)).mul' F ((ha.inv F.u_nonneg F.u_lt).mul' F hb))
  · rw [eb, ea, show ∑ i, (x i - mx) * (y i - my) * (w i * (v i * v' i * (a⁻¹ * b))) = (∑ i, F.rnd (x i - mx) * F.rnd (y i - my) * w i) * (a⁻¹ * b) from ?_]
    · field_simp
    · rw [Finset.sum_mul]
      exact Finset.sum_congr rfl fun i _ => by rw [ev i, ev' i]; ring

/-- The sample variance of `x` plus the effect of the error of the mean. -/
noncomputable def varUp (F : Rounding) (x : Fin n → ℝ) : ℝ := varOf x + n / (n - 1) * meanErr F x ^ 2

theorem sum_about (x y : Fin n → ℝ) (mx my : ℝ) (hn : 0 < n) :
    ∑ i, (x i - mx) * (y i - my) = ∑ i, (x i - meanOf x) * (y i - meanOf y) + n * ((meanOf x - mx) * (meanOf y - my)) := by
  have h : ∀ i, (x i - mx) * (y i - my) = (x i - meanOf x) * (y i - meanOf y) + ((meanOf x - mx) * (y i - meanOf y) +
      ((meanOf y - my) * (x i - meanOf x) + (meanOf x - mx) * (meanOf y - my))) := fun i => by ring
  simp only [h, Finset.sum_add_distrib, ← Finset.mul_sum, sum_sub_mean x hn, sum_sub_mean y hn, Finset.sum_const, Finset.card_univ, Fintype.card_fin,
    nsmul_eq_mul]
  ring

theorem var_about (F : Rounding) (x : Fin n → ℝ) (m : ℝ) (hn : 2 ≤ n) (hm : |m - meanOf x| ≤ meanErr F x) :
    varOf x ≤ (∑ i, (x i - m) * (x i - m)) / ((n : ℝ) - 1) ∧ (∑ i, (x i - m) * (x i - m)) / ((n : ℝ) - 1) ≤ varUp F x := by
  have h1 := sub_one_pos hn
  have h2 : (meanOf x - m) * (meanOf x - m) ≤ meanErr F x ^ 2 := by
    rw [← pow_two, ← sq_abs, abs_sub_comm]
    exact pow_le_pow_left₀ (abs_nonneg _) hm 2
  rw [sum_about x x m m (by omega), add_div, varUp, varOf]
  simp only [← pow_two]
  rw [← pow_two] at h2
  constructor
  · exact le_add_of_nonneg_right (by positivity)
  · rw [mul_div_right_comm]
    gcongr

theorem varUp_nonneg (F : Rounding) (x : Fin n → ℝ) (hn : 2 ≤ n) : 0 ≤ varUp F x := by
  have h1 := sub_one_pos hn
  rw [varUp, varOf]
  exact add_nonneg (div_nonneg (Finset.sum_nonneg fun i _ => sq_nonneg _) h1.le) (mul_nonneg (div_nonneg (by positivity) h1.le) (sq_nonneg _))

theorem near_bounds (F : Rounding) {k : ℕ} {v a lo hi : ℝ} (h : Near F.u k v a) (h0 : 0 ≤ a) (h1 : lo ≤ a) (h2 : a ≤ hi) :
    0 ≤ v ∧ (1 - F.u) ^ k * lo ≤ v ∧ v ≤ ((1 - F.u) ^ k)⁻¹ * hi := by
  obtain ⟨t, ht, rfl⟩ := h
  have hp := ht.pos F.u_nonneg F.u_lt
  have hq := one_sub_pow_pos F.u_lt k
  refine ⟨mul_nonneg h0 hp.le, ?_, ?_⟩
  · rw [mul_comm a]
    exact (mul_le_mul_of_nonneg_left h1 hq.le).trans (mul_le_mul_of_nonneg_right ht.1 h0)
  · rw [mul_comm a]
    exact (mul_le_mul_of_nonneg_right ht.2 h0).trans (mul_le_mul_of_nonneg_left h2 (by positivity))

/-- C128. The computed variance is not negative, and it lies within `n + 4` roundings of the exact one, up to the square of the error of the mean:
it is never much too small, and too large only if the data are far from zero. -/
theorem sta_var_rounding (F : Rounding) (junk : ℕ → FX F) (x : Fin n → ℝ) (t : List (FX F)) (hn : 2 ≤ n) :
    ∃ v : ℝ, staVar junk (vecF F x t) = ok (0, FX.of F v) ∧ 0 ≤ v ∧
      (1 - F.u) ^ (n + 4) * varOf x ≤ v ∧ v ≤ ((1 - F.u) ^ (n + 4))⁻¹ * (varOf x + n / (n - 1) * meanErr F x ^ 2) := by
  obtain ⟨m, hm, -, e⟩ := staDemean_F F x (by omega) (junk 0) (fun i : Fin n => junk i) t []
  obtain ⟨c, hc, w, hw, ec⟩ := covar_F F x x m m hn
  obtain ⟨h1, h2⟩ := var_about F x m hn hm
  have hp := sub_one_pos hn
  have hN : Near F.u (n + 4) c ((∑ i, (x i - m) * (x i - m)) / ((n : ℝ) - 1)) := by
    obtain ⟨r, hr, er⟩ := sum_close_near F.u_nonneg F.u_lt (fun i => (x i - m) * (x i - m)) w (fun i => mul_self_nonneg _) hw
    exact ⟨r, hr, by rw [ec, er]; ring⟩
  refine ⟨c, ?_, near_bounds F hN (div_nonneg (Finset.sum_nonneg fun i _ => mul_self_nonneg _) hp.le) h1 h2⟩
  rw [staVar, show (vecF F x t).sz = n from rfl, if_neg (by omega), vecUninit_eq, e, ok_bind]
  dsimp only
  rw [← hc]
  congr 2
  funext i s
  cases rd (vecF F (fun i => F.rnd (x i - m)) []).data i <;> rfl

/-- C128. The standard deviation is a number, never NaN, the square root of a variance within the bounds of `sta_var_rounding`, rounded. -/
theorem sta_std_dev_rounding (F : Rounding) (junk : ℕ → FX F) (x : Fin n → ℝ) (t : List (FX F)) (hn : 2 ≤ n) :
    ∃ s : ℝ, staStdDev junk (vecF F x t) = ok (0, FX.of F s) ∧ 0 ≤ s ∧
      (1 - F.u) ^ (n + 5) * Real.sqrt (varOf x) ≤ s ∧ s ≤ ((1 - F.u) ^ (n + 5))⁻¹ * Real.sqrt (varOf x + n / (n - 1) * meanErr F x ^ 2) := by
  obtain ⟨m, hm, -, e⟩ := staDemean_F F x (by omega) (junk 0) (fun i : Fin n => junk i) t []
  obtain ⟨v, hv, h0, h1, h2⟩ := sta_var_rounding F junk x t hn
  have hq := one_sub_pow_pos F.u_lt (n + 4)
  have hq1 : (1 - F.u) ^ (n + 4) ≤ 1 := pow_le_one₀ (by linarith [F.u_lt]) (by linarith [F.u_nonneg])
  have hs : (1 - F.u) ^ (n + 4) ≤ Real.sqrt ((1 - F.u) ^ (n + 4)) := Real.le_sqrt_of_sq_le (by nlinarith)
  have hs0 : 0 < Real.sqrt ((1 - F.u) ^ (n + 4)) := Real.sqrt_pos.2 hq
  have hvar : 0 ≤ varOf x := div_nonneg (Finset.sum_nonneg fun i _ => sq_nonneg _) (sub_one_pos hn).le
  obtain ⟨r, hr, er⟩ := F.near (Real.sqrt v)
  have hr0 := hr.pos F.u_nonneg F.u_lt
  have hu : 0 < 1 - F.u := by linarith [F.u_lt]
  have hr1 : 1 - F.u ≤ r := by simpa using hr.1
  have hr2 : r ≤ (1 - F.u)⁻¹ := by simpa using hr.2
  refine ⟨F.rnd (Real.sqrt v), ?_, F.rnd_nonneg (Real.sqrt_nonneg _), ?_, ?_⟩
  · rw [staStdDev, hv, ok_bind]
    dsimp only
    rw [FX.of_sqrt h0]
    rfl
  · rw [er, pow_succ, mul_assoc, mul_left_comm, mul_comm]
    refine mul_le_mul ?_ hr1 hu.le (Real.sqrt_nonneg _)
    refine (mul_le_mul_of_nonneg_right hs (Real.sqrt_nonneg _)).trans ?_
    rw [← Real.sqrt_mul hq.le]
    exact Real.sqrt_le_sqrt h1
  · rw [er, pow_succ, mul_inv, mul_assoc, mul_left_comm, mul_comm]
    refine mul_le_mul hr2 ?_ (Real.sqrt_nonneg _) (by positivity)
    refine (Real.sqrt_le_sqrt h2).trans ?_
    rw [Real.sqrt_mul (by positivity), Real.sqrt_inv]
    gcongr

/-- C128. The computed covariance: it does not depend on the order of the arguments, and its error is at most `n + 4` roundings of the
product of the deviations, plus the product of the errors of the means. -/
theorem sta_covar_rounding (F : Rounding) (junk : ℕ → FX F) (x y : Fin n → ℝ) (t s : List (FX F)) (d d' : FX F) (hn : 2 ≤ n) :
    ∃ c : ℝ, staCovar junk (vecF F x t) (vecF F y s) d = ok (0, FX.of F c) ∧ staCovar junk (vecF F y s) (vecF F x t) d' = ok (0, FX.of F c) ∧
      |c - covOf x y| ≤ gam F.u (n + 4) * (Real.sqrt (varUp F x) * Real.sqrt (varUp F y)) + n / (n - 1) * (meanErr F x * meanErr F y) := by
  obtain ⟨mx, hmx, -, ex⟩ := staDemean_F F x (by omega) (junk 0) (fun i : Fin n => junk i) t []
  obtain ⟨my, hmy, -, ey⟩ := staDemean_F F y (by omega) (junk 0) (fun i : Fin n => junk i) s []
  obtain ⟨c, hc, w, hw, ec⟩ := covar_F F x y mx my hn
  have hp := sub_one_pos hn
  refine ⟨c, ?_, ?_, ?_⟩
  · rw [staCovar, if_neg (by simp [vecF]), show (vecF F x t).sz = n from rfl, show (vecF F y s).sz = n from rfl, if_neg (by omega), vecUninit_eq, ex, ok_bind]
    dsimp only
    rw [ey, ok_bind]
    exact hc
  · rw [staCovar, if_neg (by simp [vecF]), show (vecF F x t).sz = n from rfl, show (vecF F y s).sz = n from rfl, if_neg (by omega), vecUninit_eq, ey, ok_bind]
    dsimp only
    rw [ex, ok_bind]
    dsimp only
    rw [← hc]
    refine congrArg (· >>= _) (forN_congr fun i hi a => ?_)
    have h1 := vecOf_rd (fun i => FX.of F (F.rnd (x i - mx))) [] ⟨i, hi⟩
    have h2 := vecOf_rd (fun i => FX.of F (F.rnd (y i - my))) [] ⟨i, hi⟩
    simp only at h1 h2
    unfold vecF
    rw [h1, h2, ok_bind, ok_bind, ok_bind, ok_bind, FX.of_mul, FX.of_mul, mul_comm]
  · have e1 : c - covOf x y = (∑ i, (x i - mx) * (y i - my) * w i - ∑ i, (x i - mx) * (y i - my)) / ((n : ℝ) - 1) +
        n / (n - 1) * ((meanOf x - mx) * (meanOf y - my)) := by
      rw [ec, covOf, sum_about x y mx my (by omega)]
      field_simp
      ring
    rw [e1]
    refine (abs_add_le _ _).trans (add_le_add ?_ ?_)
    · rw [abs_div, abs_of_pos hp, div_le_iff₀ hp]
      refine (sum_close_err F.u_nonneg F.u_lt _ _ hw).trans ?_
      rw [mul_assoc]
      refine mul_le_mul_of_nonneg_left ?_ (gam_nonneg F.u_nonneg F.u_lt _)
      simp only [abs_mul]
      refine (Real.sum_mul_le_sqrt_mul_sqrt _ _ _).trans ?_
      simp only [sq_abs]
      have h1 := (var_about F x mx hn hmx).2
      have h2 := (var_about F y my hn hmy).2
      rw [div_le_iff₀ hp] at h1 h2
      simp only [← pow_two] at h1 h2
      refine (mul_le_mul (Real.sqrt_le_sqrt h1) (Real.sqrt_le_sqrt h2) (Real.sqrt_nonneg _) (Real.sqrt_nonneg _)).trans (le_of_eq ?_)
      rw [Real.sqrt_mul (varUp_nonneg F x hn), Real.sqrt_mul (varUp_nonneg F y hn), mul_mul_mul_comm, Real.mul_self_sqrt hp.le]
    · rw [abs_mul, abs_of_nonneg (div_nonneg (Nat.cast_nonneg n) hp.le), abs_mul, abs_sub_comm (meanOf x), abs_sub_comm (meanOf y)]
      have := (abs_nonneg _).trans hmx
      gcongr

/-- The loop over the entries, for any scalar: the result holds the covariances of the columns. -/
theorem staCovarMtx_gen {R : Type} [CReal R] {r c : ℕ} (junk : ℕ → R) (A : Matrix (Fin r) (Fin c) R) (B C : Matrix (Fin c) (Fin c) R) (t u : List R) (hr : 0 < r)
    (h : ∀ i j, staCovar junk (vecOf (fun k => A k i) []) (vecOf (fun k => A k j) []) (junk 0) = ok (0, C i j)) :
    staCovarMtx junk (mtxOf A t) (mtxOf B u) = ok (0, mtxOf C u) := by
  have hcol : ∀ (y : Fin r → R) (j : Fin c), mtxGetCol (mtxOf A t) j (arrOf y []) = ok (0, arrOf (fun i => A i j) []) := by
    intro y j
    rw [mtxOf_eq, mkM_getCol _ _ _ j.2 (by simp [arrOf])]
    congr 2
    unfold arrOf
    congr 1
    · refine range_map_eq_ofFn fun i => ?_
      rw [ext_lt _ i.2 j.2]
    · simp
  have key : (forN c (fun i s =>
      forN c (fun j (s : List R × List R × List R) => do
        let (_, v1) ← mtxGetCol (mtxOf A t) i s.2.1
        let (_, v2) ← mtxGetCol (mtxOf A t) j s.2.2
        let (_, c') ← staCovar junk ⟨r, v1⟩ ⟨r, v2⟩ (junk 0)
        let d ← wr s.1 (i * c + j) c'
        return (d, v1, v2)) s) (mkD c c (ext B) u, junkArr junk r, junkArr junk r)).sat fun s =>
      ∃ y1 y2 : Fin r → R, s = (mkD c c (mix c 0 (ext C) (ext B)) u, arrOf y1 [], arrOf y2 []) := by
    refine forN_sat (fun i s => ∃ y1 y2 : Fin r → R,
      s = (mkD c c (mix i 0 (ext C) (ext B)) u, arrOf y1 [], arrOf y2 [])) ?_ ?_
    · refine ⟨_, _, by rw [← junkArr_eq junk r]; congr 1; exact mkD_congr fun a _ b _ => by simp [mix]⟩
    · intro i hi s hs
      refine Out.sat.mono (P := fun s => ∃ y1 y2 : Fin r → R,
        s = (mkD c c (mix i c (ext C) (ext B)) u, arrOf y1 [], arrOf y2 [])) ?_ ?_
      · refine forN_sat (fun j s => ∃ y1 y2 : Fin r → R,
          s = (mkD c c (mix i j (ext C) (ext B)) u, arrOf y1 [], arrOf y2 [])) hs ?_
        rintro j hj s ⟨y1, y2, rfl⟩
        dsimp only
        rw [hcol y1 ⟨i, hi⟩, ok_bind]
        dsimp only
        rw [hcol y2 ⟨j, hj⟩, ok_bind]
        dsimp only
        have := h ⟨i, hi⟩ ⟨j, hj⟩
        unfold vecOf at this
        rw [this, ok_bind]
        dsimp only
        rw [mkD_wr _ _ _ hi hj, ok_bind, pure_eq, sat_ok]
        refine ⟨fun k => A k ⟨i, hi⟩, fun k => A k ⟨j, hj⟩, ?_⟩
        rw [← upd_mix, ext_lt _ hi hj]
      · rintro s ⟨y1, y2, rfl⟩
        refine ⟨y1, y2, ?_⟩
        congr 1
        apply mkD_congr
        intro a _ b hb
        unfold mix
        exact if_congr (by omega) rfl rfl
  obtain ⟨s, hs, y1, y2, rfl⟩ := key
  rw [staCovarMtx, if_neg (by simp), if_neg (by simp; omega), mtxOf_rows, mtxOf_cols, mtxOf_eq B u]
  unfold mkM
  dsimp only
  rw [hs, ok_bind, pure_eq]
  dsimp only
  congr 2
  rw [mtxOf_eq]
  unfold mkM
  congr 1
  apply mkD_congr
  intro a ha b _
  simp [mix, ha]

/-- C128. The computed covariance matrix is exactly symmetric, its diagonal is not negative, and every entry obeys the bound of `sta_covar_rounding`. -/
theorem sta_covar_mtx_rounding (F : Rounding) {r c : ℕ} (junk : ℕ → FX F) (A : Matrix (Fin r) (Fin c) ℝ) (B : Matrix (Fin c) (Fin c) (FX F)) (t u : List (FX F))
    (hr : 2 ≤ r) :
    ∃ C : Matrix (Fin c) (Fin c) ℝ, staCovarMtx junk (matF F A t) (mtxOf B u) = ok (0, matF F C u) ∧ C.IsSymm ∧ (∀ i, 0 ≤ C i i) ∧
      ∀ i j, |C i j - covOf (fun k => A k i) (fun k => A k j)| ≤
        gam F.u (r + 4) * (Real.sqrt (varUp F fun k => A k i) * Real.sqrt (varUp F fun k => A k j)) +
          r / (r - 1) * (meanErr F (fun k => A k i) * meanErr F fun k => A k j) := by
  choose C h1 h2 h3 using fun i j => sta_covar_rounding F junk (fun k => A k i) (fun k => A k j) [] [] (junk 0) (junk 0) hr
  refine ⟨Matrix.of C, staCovarMtx_gen junk _ _ _ _ _ (by omega) fun i j => h1 i j, ?_, fun i => ?_, h3⟩
  · ext i j
    have := (h1 j i).symm.trans (h2 i j)
    simpa using this
  · obtain ⟨v, hv, h0, -⟩ := sta_var_rounding F junk (fun k => A k i) [] hr
    have e := h1 i i
    have : staVar junk (vecF F (fun k => A k i) []) = staCovar junk (vecF F (fun k => A k i) []) (vecF F (fun k => A k i) []) (junk 0) := by
      obtain ⟨m, hm, -, ed⟩ := staDemean_F F (fun k => A k i) (by omega) (junk 0) (fun i : Fin r => junk i) [] []
      rw [staVar, staCovar, show (vecF F (fun k => A k i) []).sz = r from rfl, if_neg (by omega), if_neg (by simp), if_neg (by omega), vecUninit_eq, ed, ok_bind, ok_bind]
      dsimp only
      rw [ok_bind]
      dsimp only
      congr 2
      funext i s
      cases rd (vecF F (fun k => F.rnd _) []).data i <;> rfl
    rw [this, e] at hv
    have : C i i = v := by simpa using hv
    simpa [this] using h0

/-- The bounds say something: three measurements with variance one, in double precision. -/
example : varOf (![1, 2, 3] : Fin 3 → ℝ) = 1 ∧ gam ((1 / 2) ^ 53) (3 + 4) < 1e-14 := by
  constructor
  · simp only [varOf, meanOf, Fin.sum_univ_three]
    norm_num [Matrix.cons_val_two]
  · refine (gam_le (by norm_num) (k := 7) (by norm_num)).trans_lt ?_
    norm_num

end Verif
