import Mathlib.Analysis.Convex.Deriv
import Mathlib.Analysis.Calculus.MeanValue
import Verif.Props.Interp2

/-!
# Accuracy of cubic interpolation: cubics are reproduced, smooth functions are followed, the curve is the only one (C171)
-/

namespace Verif

open Out

variable {n : ℕ} {X Y : ℕ → ℝ}

theorem spline_left (hX : ∀ i, i + 1 < n → X i < X (i + 1)) (yp1 ypn : ℝ) (hn : 3 ≤ n) :
    if 0.99e30 < yp1 then splineM n X Y yp1 ypn 0 = 0
    else 2 * splineM n X Y yp1 ypn 0 + splineM n X Y yp1 ypn 1 = 6 / (X 1 - X 0) * ((Y 1 - Y 0) / (X 1 - X 0) - yp1) := by
  have r := splineM_rec (n := n) (X := X) (Y := Y) yp1 ypn 0 (by omega)
  rw [swC, swU] at r
  split
  · next h =>
    rw [r, startC, startU, if_pos h, if_pos h]
    simp
  · next h =>
    rw [startC, startU, if_neg h, if_neg h] at r
    rw [zero_add] at r
    rw [r]
    ring

theorem spline_right (hX : ∀ i, i + 1 < n → X i < X (i + 1)) (yp1 ypn : ℝ) (hn : 3 ≤ n) :
    if 0.99e30 < ypn then splineM n X Y yp1 ypn (n - 1) = 0
    else 2 * splineM n X Y yp1 ypn (n - 1) + splineM n X Y yp1 ypn (n - 2) =
      6 / (X (n - 1) - X (n - 2)) * (ypn - (Y (n - 1) - Y (n - 2)) / (X (n - 1) - X (n - 2))) := by
  have r := splineM_rec (n := n) (X := X) (Y := Y) yp1 ypn (n - 2) (by omega)
  rw [show n - 2 + 1 = n - 1 by omega] at r
  have hlast : splineM n X Y yp1 ypn (n - 1) = endM n X Y (swC X (startC yp1)) (swU X Y (startC yp1) (startU X Y yp1)) ypn := by
    rw [splineM, show n - 1 - (n - 1) = 0 by omega]
    rfl
  split
  · next h => rw [hlast, endM, if_pos h]
  · next h =>
    obtain ⟨hc1, hc2⟩ := startC_mem yp1
    have hc := (swC_mem hX _ hc1 hc2 (n - 2) (by omega)).1
    rw [r]
    rw [endM, if_neg h] at hlast
    set c := swC X (startC yp1) (n - 2)
    set u := swU X Y (startC yp1) (startU X Y yp1) (n - 2)
    have hden : 1 / 2 * c + 1 ≠ 0 := by linarith
    rw [eq_div_iff hden] at hlast
    linear_combination 2 * hlast

/-- The system of the second derivatives is diagonally dominant: its solution is bounded by its right-hand side. -/
theorem spline_dominant (hX : ∀ i, i + 1 < n → X i < X (i + 1)) (hn : 3 ≤ n) (D : ℕ → ℝ) {B : ℝ} (hB : 0 ≤ B)
    (hi : ∀ i, i + 2 < n → |(X (i + 1) - X i) / 6 * D i + (X (i + 2) - X i) / 3 * D (i + 1) + (X (i + 2) - X (i + 1)) / 6 * D (i + 2)| ≤ B * (X (i + 2) - X i) / 6)
    (hl : D 0 = 0 ∨ |2 * D 0 + D 1| ≤ B) (hr : D (n - 1) = 0 ∨ |2 * D (n - 1) + D (n - 2)| ≤ B) : ∀ k, k < n → |D k| ≤ B := by
  obtain ⟨m, hm, hmax⟩ := Finset.exists_max_image (Finset.range n) (fun k => |D k|) ⟨0, by simp; omega⟩
  have hm := Finset.mem_range.1 hm
  have hmax : ∀ k, k < n → |D k| ≤ |D m| := fun k hk => hmax k (Finset.mem_range.2 hk)
  suffices h : |D m| ≤ B from fun k hk => (hmax k hk).trans h
  have hend : ∀ a b : ℝ, |b| ≤ |a| → |2 * a + b| ≤ B → |a| ≤ B := by
    intro a b h1 h2
    have h3 : |2 * a| - |b| ≤ |2 * a + b| := by
      have := abs_sub_abs_le_abs_sub (2 * a) (-b)
      rwa [abs_neg, sub_neg_eq_add] at this
    rw [abs_mul, abs_two] at h3
    linarith
  by_cases h0 : m = 0
  · subst h0
    rcases hl with h | h
    · rw [h, abs_zero]; exact hB
    · exact hend _ _ (hmax 1 (by omega)) h
  by_cases h1 : m = n - 1
  · subst h1
    rcases hr with h | h
    · rw [h, abs_zero]; exact hB
    · exact hend _ _ (hmax (n - 2) (by omega)) h
  obtain ⟨i, rfl⟩ : ∃ i, m = i + 1 := ⟨m - 1, by omega⟩
  have e := hi i (by omega)
  have x1 := hX i (by omega)
  have x2 : X (i + 1) < X (i + 2) := hX (i + 1) (by omega)
  have a1 := hmax i (by omega)
  have a2 := hmax (i + 2) (by omega)
  set p := X (i + 1) - X i with hp
  set q := X (i + 2) - X (i + 1) with hq
  have hpq : X (i + 2) - X i = p + q := by rw [hp, hq]; ring
  rw [hpq] at e
  have hp0 : 0 < p := by linarith
  have hq0 : 0 < q := by linarith
  have t : (p + q) / 3 * |D (i + 1)| ≤ B * (p + q) / 6 + (p / 6 * |D i| + q / 6 * |D (i + 2)|) := by
    have t1 : |(p + q) / 3 * D (i + 1)| ≤ |p / 6 * D i + (p + q) / 3 * D (i + 1) + q / 6 * D (i + 2)| + (|p / 6 * D i| + |q / 6 * D (i + 2)|) := by
      have g : ∀ a b c : ℝ, |b| ≤ |a + b + c| + (|a| + |c|) := by
        intro a b c
        have := abs_add_three (a + b + c) (-a) (-c)
        rw [abs_neg, abs_neg, show a + b + c + -a + -c = b by ring] at this
        linarith
      exact g _ _ _
    rw [abs_mul, abs_of_pos (by positivity : 0 < (p + q) / 3), abs_mul (p / 6), abs_of_pos (by positivity : 0 < p / 6), abs_mul (q / 6),
      abs_of_pos (by positivity : 0 < q / 6)] at t1
    linarith
  have t2 : p / 6 * |D i| + q / 6 * |D (i + 2)| ≤ (p + q) / 6 * |D (i + 1)| := by
    nlinarith
  have t3 : (p + q) * |D (i + 1)| ≤ (p + q) * B := by linarith
  exact le_of_mul_le_mul_left t3 (by linarith)

theorem X_lt (hX : ∀ i, i + 1 < n → X i < X (i + 1)) {a b : ℕ} (hab : a < b) (hb : b < n) : X a < X b := by
  induction b, hab using Nat.le_induction with
  | base => exact hX a hb
  | succ b _ ih => exact (ih (by omega)).trans (hX b hb)

theorem X_mem (hX : ∀ i, i + 1 < n → X i < X (i + 1)) {k : ℕ} (hk : k < n) : X k ∈ Set.Icc (X 0) (X (n - 1)) := by
  constructor
  · rcases Nat.eq_zero_or_pos k with rfl | h
    · exact le_rfl
    · exact (X_lt hX h hk).le
  · rcases Nat.eq_or_lt_of_le (show k ≤ n - 1 by omega) with h | h
    · rw [h]
    · exact (X_lt hX h (by omega)).le

/-! ## Uniqueness -/

/-- The equations have one solution. -/
theorem spline_unique (hX : ∀ i, i + 1 < n → X i < X (i + 1)) (hn : 3 ≤ n) (yp1 ypn : ℝ) (M : ℕ → ℝ)
    (hi : ∀ i, i + 2 < n → (X (i + 1) - X i) / 6 * M i + (X (i + 2) - X i) / 3 * M (i + 1) + (X (i + 2) - X (i + 1)) / 6 * M (i + 2) = ddJump X Y i)
    (hl : if 0.99e30 < yp1 then M 0 = 0 else 2 * M 0 + M 1 = 6 / (X 1 - X 0) * ((Y 1 - Y 0) / (X 1 - X 0) - yp1))
    (hr : if 0.99e30 < ypn then M (n - 1) = 0 else 2 * M (n - 1) + M (n - 2) = 6 / (X (n - 1) - X (n - 2)) * (ypn - (Y (n - 1) - Y (n - 2)) / (X (n - 1) - X (n - 2)))) :
    ∀ k, k < n → splineM n X Y yp1 ypn k = M k := by
  have L := spline_left (Y := Y) hX yp1 ypn hn
  have R := spline_right (Y := Y) hX yp1 ypn hn
  have h := spline_dominant hX hn (fun k => splineM n X Y yp1 ypn k - M k) le_rfl ?_ ?_ ?_
  · intro k hk
    have := h k hk
    exact sub_eq_zero.1 (abs_nonpos_iff.1 this)
  · intro i h
    have e1 := spline_tridiag (Y := Y) hX yp1 ypn i h
    have e2 := hi i h
    rw [show ∀ a b c d e f p q r : ℝ, p * (a - d) + q * (b - e) + r * (c - f) = (p * a + q * b + r * c) - (p * d + q * e + r * f) by intros; ring, e1, e2, sub_self, abs_zero, zero_mul, zero_div]
  · split at L
    · next h => rw [if_pos h] at hl; left; rw [L, hl, sub_self]
    · next h =>
      rw [if_neg h] at hl
      right
      rw [show ∀ a b c d : ℝ, 2 * (a - c) + (b - d) = (2 * a + b) - (2 * c + d) by intros; ring, L, hl, sub_self, abs_zero]
  · split at R
    · next h => rw [if_pos h] at hr; left; rw [R, hr, sub_self]
    · next h =>
      rw [if_neg h] at hr
      right
      rw [show ∀ a b c d : ℝ, 2 * (a - c) + (b - d) = (2 * a + b) - (2 * c + d) by intros; ring, R, hr, sub_self, abs_zero]

/-- C171. The second derivatives that `zsl_interp_cubic_calc` stores are the only ones whose pieces have the same slope on both sides of every interior knot and meet the conditions at the ends. -/
theorem interp_cubic_unique (hX : ∀ i, i + 1 < n → X i < X (i + 1)) (junk : ℕ → XR) (M0 : ℕ → XR) (t : List (XYC XR)) (yp1 ypn : ℝ) (hn : 3 ≤ n) (M : ℕ → ℝ)
    (hi : ∀ k, k + 2 < n → deriv (splinePiece X Y M k) (X (k + 1)) = deriv (splinePiece X Y M (k + 1)) (X (k + 1)))
    (hl : if 0.99e30 < yp1 then M 0 = 0 else deriv (splinePiece X Y M 0) (X 0) = yp1)
    (hr : if 0.99e30 < ypn then M (n - 1) = 0 else deriv (splinePiece X Y M (n - 2)) (X (n - 1)) = ypn) :
    interpCubicCalc true junk (xycTab n X Y M0 t) n (XR.fin yp1) (XR.fin ypn) = ok (0, xycTab n X Y (fun i => XR.fin (M i)) t) := by
  rw [interpCubicCalc_eq hX junk M0 t yp1 ypn hn]
  congr 2
  apply xycTab_congr
  intro k hk
  rw [spline_unique hX hn yp1 ypn M ?_ ?_ ?_ k hk]
  · intro i h
    have n1 := (hX i (by omega)).ne
    have n2 := (hX (i + 1) (by omega)).ne
    have d1 : X (i + 1) - X i ≠ 0 := sub_ne_zero.2 n1.symm
    have d2 : X (i + 2) - X (i + 1) ≠ 0 := sub_ne_zero.2 n2.symm
    have e := hi i h
    rw [splinePiece, (cubicPiece_hasDeriv _ _ _ _ _ _ _ n1).deriv, splinePiece, (cubicPiece_hasDeriv _ _ _ _ _ _ _ n2).deriv] at e
    rw [show i + 1 + 1 = i + 2 from rfl, sub_self] at e
    have e1 : (X (i + 1) - X i) ^ 2 / (X (i + 1) - X i) = X (i + 1) - X i := by field_simp
    have e2 : (X (i + 2) - X (i + 1)) ^ 2 / (X (i + 2) - X (i + 1)) = X (i + 2) - X (i + 1) := by field_simp
    rw [mul_div_assoc, mul_div_assoc, mul_div_assoc, mul_div_assoc, e1, e2] at e
    simp only [zero_pow, ne_eq, OfNat.ofNat_ne_zero, not_false_eq_true, zero_div, mul_zero, sub_zero, zero_sub] at e
    rw [ddJump]
    linarith
  · split
    · next h => rwa [if_pos h] at hl
    · next h =>
      rw [if_neg h] at hl
      have n1 := (hX 0 (by omega)).ne
      have d1 : X 1 - X 0 ≠ 0 := sub_ne_zero.2 n1.symm
      rw [splinePiece, (cubicPiece_hasDeriv _ _ _ _ _ _ _ n1).deriv] at hl
      rw [← hl]
      simp only [zero_add]
      field_simp
      ring
  · split
    · next h => rwa [if_pos h] at hr
    · next h =>
      rw [if_neg h] at hr
      have n1 := (hX (n - 2) (by omega)).ne
      rw [splinePiece, (cubicPiece_hasDeriv _ _ _ _ _ _ _ n1).deriv] at hr
      rw [show n - 2 + 1 = n - 1 by omega] at hr n1
      have d1 : X (n - 1) - X (n - 2) ≠ 0 := sub_ne_zero.2 n1.symm
      rw [← hr]
      field_simp
      ring

/-! ## Cubics -/

/-- C171. Every polynomial of degree at most three is reproduced exactly, inside and outside the table, when the slopes at the ends are given; an end may also be free if the polynomial has no
curvature there. -/
theorem interp_cubic_exact (hX : ∀ i, i + 1 < n → X i < X (i + 1)) (a b c d : ℝ) (hY : ∀ i, i < n → Y i = a * X i ^ 3 + b * X i ^ 2 + c * X i + d) (junk : ℕ → XR)
    (M0 : ℕ → XR) (t : List (XYC XR)) (yp1 ypn x : ℝ) (y : XR)
    (h1 : (yp1 ≤ 0.99e30 ∧ yp1 = 3 * a * X 0 ^ 2 + 2 * b * X 0 + c) ∨ (0.99e30 < yp1 ∧ 6 * a * X 0 + 2 * b = 0))
    (h2 : (ypn ≤ 0.99e30 ∧ ypn = 3 * a * X (n - 1) ^ 2 + 2 * b * X (n - 1) + c) ∨ (0.99e30 < ypn ∧ 6 * a * X (n - 1) + 2 * b = 0))
    (hn : 3 ≤ n) (hn' : n ≤ 1073741824) :
    ∃ T, interpCubicCalc true junk (xycTab n X Y M0 t) n (XR.fin yp1) (XR.fin ypn) = ok (0, T) ∧
      interpCubicArr T n (XR.fin x) y = ok (0, XR.fin (a * x ^ 3 + b * x ^ 2 + c * x + d)) := by
  refine ⟨_, interpCubicCalc_eq hX junk M0 t yp1 ypn hn, ?_⟩
  have hM : ∀ k, k < n → splineM n X Y yp1 ypn k = 6 * a * X k + 2 * b := by
    have hs : ∀ i, i + 1 < n → (Y (i + 1) - Y i) / (X (i + 1) - X i) = a * (X (i + 1) ^ 2 + X (i + 1) * X i + X i ^ 2) + b * (X (i + 1) + X i) + c := by
      intro i h
      have := hX i h
      rw [div_eq_iff (by linarith), hY _ h, hY i (by omega)]
      ring
    refine spline_unique hX hn yp1 ypn (fun k => 6 * a * X k + 2 * b) ?_ ?_ ?_
    · intro i h
      have e1 := hs i (by omega)
      have e2 : (Y (i + 2) - Y (i + 1)) / (X (i + 2) - X (i + 1)) = _ := hs (i + 1) h
      rw [ddJump, e1, e2, show i + 1 + 1 = i + 2 from rfl]
      ring
    · have x1 := hX 0 (by omega)
      have e1 : (Y 1 - Y 0) / (X 1 - X 0) = _ := hs 0 (by omega)
      rw [zero_add] at x1 e1
      rcases h1 with ⟨h, h1⟩ | ⟨h, h1⟩
      · rw [if_neg (not_lt.2 h), e1, h1, div_mul_eq_mul_div, eq_div_iff (by linarith)]
        ring
      · rw [if_pos h]
        exact h1
    · have x1 := hX (n - 2) (by omega)
      have e1 := hs (n - 2) (by omega)
      rw [show n - 2 + 1 = n - 1 by omega] at x1 e1
      rcases h2 with ⟨h, h2⟩ | ⟨h, h2⟩
      · rw [if_neg (not_lt.2 h), e1, h2, div_mul_eq_mul_div, eq_div_iff (by linarith)]
        ring
      · rw [if_pos h]
        exact h2
  obtain ⟨k, hk, -, -, e⟩ := interp_cubic_arr_correct (Y := Y) hX (splineM n X Y yp1 ypn) t x y hn hn'
  have hd : X (k + 1) - X k ≠ 0 := by have := hX k hk; linarith
  rw [e, splinePiece, cubicPiece, hM k (by omega), hM _ hk, hY k (by omega), hY _ hk]
  congr 3
  field_simp
  ring

/-! ## Smooth functions -/

section Smooth

variable {f f' : ℝ → ℝ} {K lo hi : ℝ}

theorem smooth_convex (hf : ∀ x ∈ Set.Icc lo hi, HasDerivAt f (f' x) x) (hL : ∀ x ∈ Set.Icc lo hi, ∀ y ∈ Set.Icc lo hi, |f' x - f' y| ≤ K * |x - y|) {s : ℝ} (hs : |s| = 1) :
    ConvexOn ℝ (Set.Icc lo hi) (fun x => K / 2 * x ^ 2 + s * f x) := by
  have hd : ∀ x ∈ Set.Icc lo hi, HasDerivAt (fun x => K / 2 * x ^ 2 + s * f x) (K * x + s * f' x) x := by
    intro x hx
    have := (((hasDerivAt_id x).pow 2).const_mul (K / 2)).add ((hf x hx).const_mul s)
    refine this.congr_deriv ?_
    simp only [id]
    push_cast
    ring
  refine MonotoneOn.convexOn_of_deriv (convex_Icc lo hi) (fun x hx => (hd x hx).continuousAt.continuousWithinAt)
    (fun x hx => (hd x (interior_subset hx)).differentiableAt.differentiableWithinAt) ?_
  intro x hx y hy hxy
  rw [(hd x (interior_subset hx)).deriv, (hd y (interior_subset hy)).deriv]
  have h := hL x (interior_subset hx) y (interior_subset hy)
  have h2 : s * (f' x - f' y) ≤ K * |x - y| := by
    refine (le_abs_self _).trans ?_
    rw [abs_mul, hs, one_mul]
    exact h
  rw [abs_sub_comm, abs_of_nonneg (by linarith : 0 ≤ y - x)] at h2
  linarith

theorem both_signs {a b : ℝ} (h : ∀ s : ℝ, |s| = 1 → s * a ≤ b) : |a| ≤ b := by
  rw [abs_le]
  have h1 := h 1 (by simp)
  have h2 := h (-1) (by simp)
  constructor <;> linarith

theorem smooth_jump (hf : ∀ x ∈ Set.Icc lo hi, HasDerivAt f (f' x) x) (hL : ∀ x ∈ Set.Icc lo hi, ∀ y ∈ Set.Icc lo hi, |f' x - f' y| ≤ K * |x - y|) {a b c : ℝ} (ha : lo ≤ a)
    (hab : a < b) (hbc : b < c) (hc : c ≤ hi) : |(f c - f b) / (c - b) - (f b - f a) / (b - a)| ≤ K / 2 * (c - a) := by
  have h1 : b - a ≠ 0 := by linarith
  have h2 : c - b ≠ 0 := by linarith
  refine both_signs fun s hs => ?_
  have h := (smooth_convex hf hL (s := -s) (by rwa [abs_neg])).slope_mono_adjacent (x := a) (y := b) (z := c) ⟨ha, by linarith⟩ ⟨by linarith, hc⟩ hab hbc
  have e : ∀ x y : ℝ, y - x ≠ 0 → (K / 2 * y ^ 2 + -s * f y - (K / 2 * x ^ 2 + -s * f x)) / (y - x) = K / 2 * (x + y) - s * ((f y - f x) / (y - x)) := by
    intro x y h
    field_simp
    ring
  rw [e a b h1, e b c h2] at h
  linarith

theorem smooth_left (hf : ∀ x ∈ Set.Icc lo hi, HasDerivAt f (f' x) x) (hL : ∀ x ∈ Set.Icc lo hi, ∀ y ∈ Set.Icc lo hi, |f' x - f' y| ≤ K * |x - y|) {a b : ℝ} (ha : lo ≤ a)
    (hab : a < b) (hb : b ≤ hi) : |(f b - f a) / (b - a) - f' a| ≤ K / 2 * (b - a) ∧ |f' b - (f b - f a) / (b - a)| ≤ K / 2 * (b - a) := by
  have h1 : b - a ≠ 0 := by linarith
  have hd : ∀ (s : ℝ) (x : ℝ), x ∈ Set.Icc lo hi → HasDerivAt (fun x => K / 2 * x ^ 2 + s * f x) (K * x + s * f' x) x := by
    intro s x hx
    have := (((hasDerivAt_id x).pow 2).const_mul (K / 2)).add ((hf x hx).const_mul s)
    refine this.congr_deriv ?_
    simp only [id]
    push_cast
    ring
  have ma : a ∈ Set.Icc lo hi := ⟨ha, by linarith⟩
  have mb : b ∈ Set.Icc lo hi := ⟨by linarith, hb⟩
  have e : ∀ s : ℝ, slope (fun x => K / 2 * x ^ 2 + s * f x) a b = K / 2 * (a + b) + s * ((f b - f a) / (b - a)) := by
    intro s
    rw [slope_def_field]
    field_simp
    ring
  constructor
  · refine both_signs fun s hs => ?_
    have h := (smooth_convex hf hL (s := -s) (by rwa [abs_neg])).le_slope_of_hasDerivAt ma mb hab (hd (-s) a ma)
    rw [e] at h
    linarith
  · refine both_signs fun s hs => ?_
    have h := (smooth_convex hf hL (s := s) hs).slope_le_of_hasDerivAt ma mb hab (hd s b mb)
    rw [e] at h
    have h' := (smooth_convex hf hL (s := -s) (by rwa [abs_neg])).slope_le_of_hasDerivAt ma mb hab (hd (-s) b mb)
    rw [e] at h'
    linarith

theorem smooth_chord (hf : ∀ x ∈ Set.Icc lo hi, HasDerivAt f (f' x) x) (hL : ∀ x ∈ Set.Icc lo hi, ∀ y ∈ Set.Icc lo hi, |f' x - f' y| ≤ K * |x - y|) {a b x : ℝ} (ha : lo ≤ a)
    (hab : a < b) (hb : b ≤ hi) (hx : a ≤ x) (hx' : x ≤ b) : |f x - (f a * (b - x) / (b - a) + f b * (x - a) / (b - a))| ≤ K / 2 * ((x - a) * (b - x)) := by
  have h1 : b - a ≠ 0 := by linarith
  have hp : 0 < b - a := by linarith
  refine both_signs fun s hs => ?_
  have h := (smooth_convex hf hL (s := s) hs).2
  have h := @h a ⟨ha, by linarith⟩ b ⟨by linarith, hb⟩ ((b - x) / (b - a)) ((x - a) / (b - a)) (div_nonneg (by linarith) hp.le) (div_nonneg (by linarith) hp.le) (by field_simp; ring)
  have ex : (b - x) / (b - a) * a + (x - a) / (b - a) * b = x := by field_simp; ring
  simp only [smul_eq_mul] at h
  rw [ex] at h
  have e2 : (b - x) / (b - a) * a ^ 2 + (x - a) / (b - a) * b ^ 2 = x ^ 2 + (x - a) * (b - x) := by field_simp; ring
  have e3 : f a * (b - x) / (b - a) + f b * (x - a) / (b - a) = (b - x) / (b - a) * f a + (x - a) / (b - a) * f b := by ring
  rw [e3]
  linear_combination h + K / 2 * e2

end Smooth

theorem piece_chord {a b x m0 m1 y0 y1 B : ℝ} (hab : a < b) (hx : a ≤ x) (hx' : x ≤ b) (h0 : |m0| ≤ B) (h1 : |m1| ≤ B) :
    |cubicPiece a y0 m0 b y1 m1 x - (y0 * (b - x) / (b - a) + y1 * (x - a) / (b - a))| ≤ B / 2 * ((x - a) * (b - x)) := by
  obtain ⟨p, hp⟩ : ∃ p, p = b - x := ⟨_, rfl⟩
  obtain ⟨q, hq⟩ : ∃ q, q = x - a := ⟨_, rfl⟩
  have hpq : b - a = p + q := by rw [hp, hq]; ring
  have hp0 : 0 ≤ p := by linarith
  have hq0 : 0 ≤ q := by linarith
  have hh : 0 < p + q := by linarith
  rw [cubicPiece, ← hp, ← hq, hpq]
  have e : y0 * p / (p + q) + y1 * q / (p + q) + m0 / 6 * (p ^ 3 / (p + q) - p * (p + q)) + m1 / 6 * (q ^ 3 / (p + q) - q * (p + q)) - (y0 * p / (p + q) + y1 * q / (p + q)) =
      -(m0 * (p * q * (2 * p + q)) + m1 * (p * q * (p + 2 * q))) / (6 * (p + q)) := by
    field_simp
    ring
  rw [e, abs_div, abs_neg, abs_of_pos (by positivity : 0 < 6 * (p + q)), div_le_iff₀ (by positivity)]
  refine (abs_add_le _ _).trans ?_
  rw [abs_mul m0, abs_mul m1, abs_of_nonneg (by positivity : 0 ≤ p * q * (2 * p + q)), abs_of_nonneg (by positivity : 0 ≤ p * q * (p + 2 * q))]
  have a1 := mul_le_mul_of_nonneg_right h0 (by positivity : 0 ≤ p * q * (2 * p + q))
  have a2 := mul_le_mul_of_nonneg_right h1 (by positivity : 0 ≤ p * q * (p + 2 * q))
  linarith

/-- C171. `zsl_interp_cubic_calc` followed by `zsl_interp_cubic_arr` follows every smooth function: if the table holds values of a function whose slope changes by at most `K` per unit, and no
gap in the table is wider than `H`, the interpolated value is within `K H² / 2` of the function everywhere inside the table, with free ends as well as with the slopes of the function at the
ends. -/
theorem interp_cubic_accuracy (hX : ∀ i, i + 1 < n → X i < X (i + 1)) (f f' : ℝ → ℝ) (K H : ℝ)
    (hf : ∀ x ∈ Set.Icc (X 0) (X (n - 1)), HasDerivAt f (f' x) x)
    (hL : ∀ x ∈ Set.Icc (X 0) (X (n - 1)), ∀ y ∈ Set.Icc (X 0) (X (n - 1)), |f' x - f' y| ≤ K * |x - y|)
    (hY : ∀ i, i < n → Y i = f (X i)) (hH : ∀ i, i + 1 < n → X (i + 1) - X i ≤ H) (junk : ℕ → XR) (M0 : ℕ → XR) (t : List (XYC XR)) (yp1 ypn x : ℝ) (y : XR)
    (h1 : 0.99e30 < yp1 ∨ yp1 = f' (X 0)) (h2 : 0.99e30 < ypn ∨ ypn = f' (X (n - 1))) (hn : 3 ≤ n) (hn' : n ≤ 1073741824)
    (hx : x ∈ Set.Icc (X 0) (X (n - 1))) :
    ∃ T r, interpCubicCalc true junk (xycTab n X Y M0 t) n (XR.fin yp1) (XR.fin ypn) = ok (0, T) ∧
      interpCubicArr T n (XR.fin x) y = ok (0, XR.fin r) ∧ |r - f x| ≤ K * H ^ 2 / 2 := by
  obtain ⟨k, hk, hk1, hk2, e⟩ := interp_cubic_arr_correct (Y := Y) hX (splineM n X Y yp1 ypn) t x y hn hn'
  refine ⟨_, _, interpCubicCalc_eq hX junk M0 t yp1 ypn hn, e, ?_⟩
  have x01 := hX 0 (by omega)
  rw [zero_add] at x01
  have hK : 0 ≤ K := by
    have h := hL _ (X_mem hX (k := 0) (by omega)) _ (X_mem hX (k := 1) (by omega))
    have h3 := (abs_nonneg _).trans h
    have h4 : 0 < |X 0 - X 1| := abs_pos.2 (by linarith)
    by_contra hc
    nlinarith
  have hM : ∀ k, k < n → |splineM n X Y yp1 ypn k| ≤ 3 * K := by
    refine spline_dominant hX hn _ (by linarith) ?_ ?_ ?_
    · intro i h
      rw [spline_tridiag (Y := Y) hX yp1 ypn i h, ddJump, hY i (by omega), hY (i + 1) (by omega), hY (i + 2) h]
      have := smooth_jump hf hL (a := X i) (b := X (i + 1)) (c := X (i + 2)) (X_mem hX (by omega)).1 (hX i (by omega)) (hX (i + 1) (by omega)) (X_mem hX h).2
      linarith
    · have L := spline_left (Y := Y) hX yp1 ypn hn
      split at L
      · exact Or.inl L
      · next h =>
        right
        rw [L, hY 0 (by omega), hY 1 (by omega), h1.resolve_left h]
        have := (smooth_left hf hL (a := X 0) (b := X 1) le_rfl x01 (X_mem hX (by omega)).2).1
        rw [abs_mul, abs_of_pos (by apply div_pos <;> linarith : 0 < 6 / (X 1 - X 0)), div_mul_eq_mul_div, div_le_iff₀ (by linarith)]
        linarith
    · have R := spline_right (Y := Y) hX yp1 ypn hn
      have x1 := hX (n - 2) (by omega)
      rw [show n - 2 + 1 = n - 1 by omega] at x1
      split at R
      · exact Or.inl R
      · next h =>
        right
        rw [R, hY (n - 1) (by omega), hY (n - 2) (by omega), h2.resolve_left h]
        have := (smooth_left hf hL (a := X (n - 2)) (b := X (n - 1)) (X_mem hX (by omega)).1 x1 le_rfl).2
        rw [abs_mul, abs_of_pos (by apply div_pos <;> linarith : 0 < 6 / (X (n - 1) - X (n - 2))), div_mul_eq_mul_div, div_le_iff₀ (by linarith)]
        linarith
  have g1 : X k ≤ x := by
    rcases hk1 with rfl | h
    · exact hx.1
    · exact h
  have g2 : x ≤ X (k + 1) := by
    rcases hk2 with h | h
    · have := hx.2
      rwa [show n - 1 = k + 1 by omega] at this
    · exact h.le
  have c1 := smooth_chord hf hL (X_mem hX (k := k) (by omega)).1 (hX k hk) (X_mem hX hk).2 g1 g2
  have c2 := piece_chord (y0 := Y k) (y1 := Y (k + 1)) (hX k hk) g1 g2 (hM k (by omega)) (hM (k + 1) hk)
  rw [hY k (by omega), hY _ hk] at c2
  rw [splinePiece, hY k (by omega), hY _ hk]
  have c3 : (x - X k) * (X (k + 1) - x) ≤ H ^ 2 / 4 := by
    have h3 := hH k hk
    have h4 := hX k hk
    nlinarith [sq_nonneg ((x - X k) - (X (k + 1) - x))]
  have c4 := mul_le_mul_of_nonneg_left c3 hK
  generalize f (X k) * (X (k + 1) - x) / (X (k + 1) - X k) + f (X (k + 1)) * (x - X k) / (X (k + 1) - X k) = l at c1 c2
  have := abs_sub_le (cubicPiece (X k) (f (X k)) (splineM n X Y yp1 ypn k) (X (k + 1)) (f (X (k + 1))) (splineM n X Y yp1 ypn (k + 1)) x) l (f x)
  rw [abs_sub_comm l (f x)] at this
  linarith

/-- The points of a table whose neighbours are at least 1e-6 apart lie between the first and the last. -/
theorem tab_mem (xs : Fin n → ℝ) (h2 : 2 ≤ n) (hm : ∀ (i : ℕ) (h : i + 1 < n), 1e-6 ≤ xs ⟨i + 1, h⟩ - xs ⟨i, by omega⟩) (i : Fin n) :
    xs ⟨0, by omega⟩ ≤ xs i ∧ xs i ≤ xs ⟨n - 1, by omega⟩ := by
  have hmono : Monotone xs := by
    obtain ⟨k, rfl⟩ : ∃ k, n = k + 1 := ⟨n - 1, by omega⟩
    rw [Fin.monotone_iff_le_succ]
    intro i
    have := hm i.val (by omega)
    have e : (⟨i.val + 1, by omega⟩ : Fin (k + 1)) = i.succ := rfl
    have e' : (⟨i.val, by omega⟩ : Fin (k + 1)) = i.castSucc := rfl
    rw [e, e'] at this
    linarith
  exact ⟨hmono (Fin.mk_le_of_le_val (Nat.zero_le _)), hmono (by rw [Fin.le_def]; simp only; omega)⟩

/-- C171. `zsl_interp_lin_y_arr` on a table of values of a function whose slope changes by at most `K` per unit, with no gap wider than `H`, is within `K H² / 8` of the function. -/
theorem interp_lin_y_arr_accuracy (xs ys : Fin n → ℝ) (t : List (XY XR)) (x : ℝ) (h2 : 2 ≤ n) (hn : n < 2147483648)
    (hm : ∀ (i : ℕ) (h : i + 1 < n), 1e-6 ≤ xs ⟨i + 1, h⟩ - xs ⟨i, by omega⟩) (h0 : xs ⟨0, by omega⟩ ≤ x) (h1 : x ≤ xs ⟨n - 1, by omega⟩) (f f' : ℝ → ℝ) (K H : ℝ)
    (hf : ∀ x ∈ Set.Icc (xs ⟨0, by omega⟩) (xs ⟨n - 1, by omega⟩), HasDerivAt f (f' x) x)
    (hL : ∀ x ∈ Set.Icc (xs ⟨0, by omega⟩) (xs ⟨n - 1, by omega⟩), ∀ y ∈ Set.Icc (xs ⟨0, by omega⟩) (xs ⟨n - 1, by omega⟩), |f' x - f' y| ≤ K * |x - y|)
    (hY : ∀ i, ys i = f (xs i)) (hH : ∀ (i : ℕ) (h : i + 1 < n), xs ⟨i + 1, h⟩ - xs ⟨i, by omega⟩ ≤ H) :
    ∃ r, interpLinYArr (xyTab xs ys t) n (XR.fin x) = ok (0, XR.fin r) ∧ |r - f x| ≤ K * H ^ 2 / 8 := by
  obtain ⟨i, hi, a1, a2, e, -⟩ := interp_lin_y_arr_correct xs ys t x h2 hn hm h0 h1
  refine ⟨_, e, ?_⟩
  have hgap := hm i hi
  have hgap2 := hH i hi
  have hab : xs ⟨i, by omega⟩ < xs ⟨i + 1, hi⟩ := by
    have : (0 : ℝ) < 1e-6 := by norm_num
    linarith
  have hd : xs ⟨i + 1, hi⟩ - xs ⟨i, by omega⟩ ≠ 0 := by linarith
  have c := smooth_chord hf hL (tab_mem xs h2 hm ⟨i, by omega⟩).1 hab (tab_mem xs h2 hm ⟨i + 1, hi⟩).2 a1 a2
  have hK : 0 ≤ K := by
    have h := hL _ (tab_mem xs h2 hm ⟨i, by omega⟩) _ (tab_mem xs h2 hm ⟨i + 1, hi⟩)
    have h3 := (abs_nonneg _).trans h
    have h4 : 0 < |xs ⟨i, by omega⟩ - xs ⟨i + 1, hi⟩| := abs_pos.2 (by linarith)
    by_contra hc
    nlinarith
  rw [chord, hY, hY]
  generalize xs ⟨i, _⟩ = a at *
  generalize xs ⟨i + 1, hi⟩ = b at *
  have e2 : f a + (f b - f a) / (b - a) * (x - a) = f a * (b - x) / (b - a) + f b * (x - a) / (b - a) := by
    field_simp
    ring
  rw [e2, abs_sub_comm]
  have c3 : (x - a) * (b - x) ≤ H ^ 2 / 4 := by nlinarith [sq_nonneg ((x - a) - (b - x))]
  have c4 := mul_le_mul_of_nonneg_left c3 hK
  linarith

/-- C171. `zsl_interp_nn_arr`, although it does not always take the nearer point (`interp_nn_arr_wrong`), is within `L H` of a function with slopes of at most `L`. -/
theorem interp_nn_arr_accuracy (xs ys : Fin n → ℝ) (t : List (XY XR)) (x : ℝ) (y : XR) (h2 : 2 ≤ n) (hn : n < 2147483648)
    (hm : ∀ (i : ℕ) (h : i + 1 < n), 1e-6 ≤ xs ⟨i + 1, h⟩ - xs ⟨i, by omega⟩) (h0 : xs ⟨0, by omega⟩ ≤ x) (h1 : x ≤ xs ⟨n - 1, by omega⟩) (f : ℝ → ℝ) (L H : ℝ) (hL0 : 0 ≤ L)
    (hL : ∀ x ∈ Set.Icc (xs ⟨0, by omega⟩) (xs ⟨n - 1, by omega⟩), ∀ y ∈ Set.Icc (xs ⟨0, by omega⟩) (xs ⟨n - 1, by omega⟩), |f x - f y| ≤ L * |x - y|)
    (hY : ∀ i, ys i = f (xs i)) (hH : ∀ (i : ℕ) (h : i + 1 < n), xs ⟨i + 1, h⟩ - xs ⟨i, by omega⟩ ≤ H) :
    ∃ r, interpNnArr (xyTab xs ys t) n (XR.fin x) y = ok (0, XR.fin r) ∧ |r - f x| ≤ L * H := by
  obtain ⟨i, hi, a1, a2, e⟩ := interp_nn_arr_value xs ys t x y h2 hn hm h0 h1
  refine ⟨_, e, ?_⟩
  have hgap2 := hH i hi
  split
  · rw [hY]
    refine (hL _ (tab_mem xs h2 hm ⟨i + 1, hi⟩) x ⟨h0, h1⟩).trans (mul_le_mul_of_nonneg_left ?_ hL0)
    rw [abs_of_nonneg (by linarith)]
    linarith
  · rw [hY]
    refine (hL _ (tab_mem xs h2 hm ⟨i, by omega⟩) x ⟨h0, h1⟩).trans (mul_le_mul_of_nonneg_left ?_ hL0)
    rw [abs_of_nonpos (by linarith)]
    linarith

/-- C171. Two points of a parabola, linearly interpolated. -/
example (x : ℝ) (hx : x ∈ Set.Icc (0 : ℝ) 1) : ∃ r, interpLinYArr (xyTab ![0, 1] ![0, 1] []) 2 (XR.fin x) = ok (0, XR.fin r) ∧ |r - x ^ 2| ≤ 1 / 4 := by
  have h := interp_lin_y_arr_accuracy ![0, 1] ![0, 1] [] x le_rfl (by norm_num) (fun i h => by
      obtain rfl : i = 0 := by omega
      norm_num) (by simpa using hx.1) (by simpa using hx.2)
    (fun x => x ^ 2) (fun x => 2 * x) 2 1 (fun x _ => by simpa using hasDerivAt_pow 2 x) (fun x _ y _ => by rw [← mul_sub, abs_mul, abs_two])
    (fun i => by fin_cases i <;> simp) (fun i h => by
      obtain rfl : i = 0 := by omega
      norm_num)
  norm_num at h ⊢
  exact h

/-- C171. Three points of the fourth power, whose slope changes by at most 48 per unit between 0 and 2. -/
example (junk M0 : ℕ → XR) (y : XR) (x : ℝ) (hx : x ∈ Set.Icc (0 : ℝ) 2) : ∃ T r,
    interpCubicCalc true junk (xycTab 3 (fun i => i) (fun i => (i : ℝ) ^ 4) M0 []) 3 (XR.fin 0) (XR.fin 1e30) = ok (0, T) ∧
      interpCubicArr T 3 (XR.fin x) y = ok (0, XR.fin r) ∧ |r - x ^ 4| ≤ 24 := by
  have h := interp_cubic_accuracy (n := 3) (X := fun i => i) (Y := fun i => (i : ℝ) ^ 4) (fun i _ => by simp) (fun x => x ^ 4) (fun x => 4 * x ^ 3) 48 1
    (fun x _ => by simpa using hasDerivAt_pow 4 x) (fun x hx y hy => ?_) (fun _ _ => rfl) (fun i _ => by simp) junk M0 [] 0 1e30 x y (Or.inr (by simp)) (Or.inl (by norm_num)) le_rfl
    (by norm_num) (by norm_num; exact hx)
  · norm_num at h ⊢
    exact h
  · norm_num at hx hy
    rw [show 4 * x ^ 3 - 4 * y ^ 3 = 4 * (x ^ 2 + x * y + y ^ 2) * (x - y) by ring, abs_mul]
    refine mul_le_mul_of_nonneg_right ?_ (abs_nonneg _)
    have h1 : 0 ≤ x * y := mul_nonneg hx.1 hy.1
    rw [abs_of_nonneg (by positivity)]
    nlinarith

/-- C171. Four points of a cube with the slopes at the ends. -/
example (junk M0 : ℕ → XR) (y : XR) : ∃ T, interpCubicCalc true junk (xycTab 4 (fun i => i) (fun i => (i : ℝ) ^ 3) M0 []) 4 (XR.fin 0) (XR.fin 27) = ok (0, T) ∧
    interpCubicArr T 4 (XR.fin 1.5) y = ok (0, XR.fin 3.375) := by
  have h := interp_cubic_exact (n := 4) (X := fun i => i) (Y := fun i => (i : ℝ) ^ 3) (fun i _ => by simp) 1 0 0 0 (fun _ _ => by ring) junk M0 [] 0 27 1.5 y (Or.inl (by norm_num))
    (Or.inl (by norm_num)) (by norm_num) (by norm_num)
  norm_num at h ⊢
  exact h

end Verif
