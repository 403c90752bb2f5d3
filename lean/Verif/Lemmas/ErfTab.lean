import Verif.Lemmas.ErfFit
import Verif.Props.Prob3

/-!
# The two polynomials of the inverse error function: evaluation of the bounds
-/

namespace Verif.PB

open Verif

/-- The polynomial for the middle as a polynomial in `u = -t`, lowest coefficient first. -/
def midU : List ℚ :=
  [8.86226892e-1, 2.32015476e-1, 1.15392581e-2, -2.31468678e-3, -1.47697632e-4, 5.61530760e-5, 1.12963626e-7, -1.22774793e-6, 1.43285448e-7,
    -5.43877832e-9]

/-- The polynomial for the tails as a polynomial in `u = -t`, lowest coefficient first. -/
def tailU : List ℚ :=
  [8.40016484e-1, 2.64646143e-1, 4.83185798e-3, -3.02698812e-3, 3.93552968e-4, -2.84108955e-5, 1.22150334e-6, -2.93243101e-8, 3.03697567e-10]

theorem mid_eq (u : ℝ) : erfInvMid.foldl (fun (p : ℝ) (q : ℚ) => p * (-u) + (q : ℝ)) ((5.43877832e-9 : ℚ) : ℝ) = pev midU u := by
  simp only [erfInvMid, midU, List.foldl_cons, List.foldl_nil, pev]
  norm_num
  ring

theorem tail_eq (u : ℝ) : erfInvTail.foldl (fun (p : ℝ) (q : ℚ) => p * (-u) + (q : ℝ)) ((3.03697567e-10 : ℚ) : ℝ) = pev tailU u := by
  simp only [erfInvTail, tailU, List.foldl_cons, List.foldl_nil, pev]
  norm_num
  ring

theorem erfInvPoly_mid {u : ℝ} (h0 : 0 ≤ u) (h : u ≤ 49 / 8) : erfInvPoly (-u) = pev midU u := by
  rw [erfInvPoly, abs_neg, abs_of_nonneg h0, if_neg (by norm_num; linarith), mid_eq]

theorem erfInvPoly_tail {u : ℝ} (h : 49 / 8 < u) : erfInvPoly (-u) = pev tailU u := by
  rw [erfInvPoly, abs_neg, abs_of_nonneg (by linarith), if_pos (by norm_num; linarith), tail_eq]

/-- Bounds for the 49 intervals of the middle, in units of 1e-7. -/
def midD : List ℚ :=
  [64, 36, 23, 25, 28, 27, 16, 16, 26, 28, 28, 21, 9, 21, 30, 35, 35, 33, 24, 10, 21, 33, 40, 41, 41, 35, 22, 14, 31, 44, 50, 50, 47, 34, 17, 46,
    71, 85, 87, 82, 54, 78, 160, 232, 254, 271, 191, 760, 1800]

/-- Bounds for the 40 intervals of the tail, in units of 1e-7. -/
def tailD : List ℚ :=
  [965, 274, 168, 150, 113, 46, 66, 80, 80, 68, 40, 27, 51, 63, 64, 62, 47, 24, 31, 53, 66, 68, 68, 58, 37, 23, 52, 73, 82, 83, 74, 46, 56, 111,
    153, 159, 166, 108, 381, 852]

theorem chkAll_append {c : List ℚ} {w k : ℕ} {a b : List ℚ} (h1 : chkAll c w k a = true) (h2 : chkAll c w (k + a.length * (2 * w)) b = true) :
    chkAll c w k (a ++ b) = true := by
  induction a generalizing k with
  | nil => simpa using h2
  | cons x a ih =>
    simp only [List.cons_append, chkAll, Bool.and_eq_true] at h1 ⊢
    refine ⟨h1.1, ih h1.2 ?_⟩
    rw [List.length_cons, show k + (a.length + 1) * (2 * w) = k + 2 * w + a.length * (2 * w) by ring] at h2
    exact h2

/-! In pieces, which keeps the memory small. -/

theorem mid_chk_0 : chkAll midU 1 1 (((midD.drop 0).take 10).map (· / 10 ^ 7)) = true := by decide +kernel

theorem mid_chk_1 : chkAll midU 1 21 (((midD.drop 10).take 10).map (· / 10 ^ 7)) = true := by decide +kernel

theorem mid_chk_2 : chkAll midU 1 41 (((midD.drop 20).take 10).map (· / 10 ^ 7)) = true := by decide +kernel

theorem mid_chk_3 : chkAll midU 1 61 (((midD.drop 30).take 10).map (· / 10 ^ 7)) = true := by decide +kernel

theorem mid_chk_4 : chkAll midU 1 81 (((midD.drop 40).take 9).map (· / 10 ^ 7)) = true := by decide +kernel

theorem tail_chk_0 : chkAll tailU 2 100 (((tailD.drop 0).take 10).map (· / 10 ^ 7)) = true := by decide +kernel

theorem tail_chk_1 : chkAll tailU 2 140 (((tailD.drop 10).take 10).map (· / 10 ^ 7)) = true := by decide +kernel

theorem tail_chk_2 : chkAll tailU 2 180 (((tailD.drop 20).take 10).map (· / 10 ^ 7)) = true := by decide +kernel

theorem tail_chk_3 : chkAll tailU 2 220 (((tailD.drop 30).take 10).map (· / 10 ^ 7)) = true := by decide +kernel

theorem mid_chk : chkAll midU 1 1 (midD.map (· / 10 ^ 7)) = true := by
  have e : midD.map (· / 10 ^ 7) = ((midD.drop 0).take 10).map (· / 10 ^ 7) ++ (((midD.drop 10).take 10).map (· / 10 ^ 7) ++ (((midD.drop 20).take 10).map (· / 10 ^ 7) ++ (((midD.drop 30).take 10).map (· / 10 ^ 7) ++ (((midD.drop 40).take 9).map (· / 10 ^ 7))))) := by simp [midD]
  rw [e]
  refine chkAll_append mid_chk_0 ?_
  refine chkAll_append mid_chk_1 ?_
  refine chkAll_append mid_chk_2 ?_
  refine chkAll_append mid_chk_3 ?_
  exact mid_chk_4

theorem tail_chk : chkAll tailU 2 100 (tailD.map (· / 10 ^ 7)) = true := by
  have e : tailD.map (· / 10 ^ 7) = ((tailD.drop 0).take 10).map (· / 10 ^ 7) ++ (((tailD.drop 10).take 10).map (· / 10 ^ 7) ++ (((tailD.drop 20).take 10).map (· / 10 ^ 7) ++ (((tailD.drop 30).take 10).map (· / 10 ^ 7)))) := by simp [tailD]
  rw [e]
  refine chkAll_append tail_chk_0 ?_
  refine chkAll_append tail_chk_1 ?_
  refine chkAll_append tail_chk_2 ?_
  exact tail_chk_3

end Verif.PB
