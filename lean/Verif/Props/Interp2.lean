import Verif.Props.Interp1
import Mathlib.Analysis.Calculus.Deriv.Pow
import Mathlib.Analysis.Calculus.Deriv.Mul
import Mathlib.Analysis.Calculus.Deriv.Add

/-!
# Interpolation: cubic splines (C41)
-/

namespace Verif

open Out

variable {n : ℕ} {X Y : ℕ → ℝ}

/-! ## Memory -/

theorem xycTab_length (M : ℕ → XR) (t) : (xycTab n X Y M t).length = n + t.length := by simp [xycTab]

theorem xycTab_rd (M : ℕ → XR) (t) (i : ℕ) (h : i < n) :
    rd (xycTab n X Y M t) i = ok ⟨XR.fin (X i), XR.fin (Y i), M i⟩ := by
  apply rd_of
  simp [xycTab, List.getElem?_append, h]

theorem xycTab_congr (M M' : ℕ → XR) (t) (h : ∀ i, i < n → M i = M' i) : xycTab n X Y M t = xycTab n X Y M' t := by
  rw [xycTab, xycTab]
  congr 1
  apply List.map_congr_left
  intro i hi
  rw [h i (List.mem_range.1 hi)]

theorem xycTab_wr (M : ℕ → XR) (t) (i : ℕ) (h : i < n) (m : XR) :
    wr (xycTab n X Y M t) i ⟨XR.fin (X i), XR.fin (Y i), m⟩ = ok (xycTab n X Y (Function.update M i m) t) := by
  rw [wr_lt _ (by rw [xycTab_length]; omega)]
  congr 1
  apply List.ext_getElem?
  intro j
  rw [List.getElem?_set]
  by_cases hij : i = j
  · subst hij
    rw [if_pos rfl]
    simp [xycTab, List.getElem?_append, h]
    omega
  · rw [if_neg hij]
    simp only [xycTab, List.getElem?_append, List.length_map, List.length_range, List.getElem?_map]
    by_cases hj : j < n
    · simp [hj, Function.update_of_ne (Ne.symm hij)]
    · simp [hj]

/-! ## The sweeps -/

noncomputable def swS (X : ℕ → ℝ) (i : ℕ) : ℝ := (X (i + 1) - X i) / (X (i + 2) - X i)

noncomputable def swC (X : ℕ → ℝ) (c0 : ℝ) : ℕ → ℝ
  | 0 => c0
  | i + 1 => (swS X i - 1) / (swS X i * swC X c0 i + 2)

/-- The jump of the divided difference at knot `i + 1`. -/
noncomputable def ddJump (X Y : ℕ → ℝ) (i : ℕ) : ℝ :=
  (Y (i + 2) - Y (i + 1)) / (X (i + 2) - X (i + 1)) - (Y (i + 1) - Y i) / (X (i + 1) - X i)

noncomputable def swU (X Y : ℕ → ℝ) (c0 u0 : ℝ) : ℕ → ℝ
  | 0 => u0
  | i + 1 => (6 * ddJump X Y i / (X (i + 2) - X i) - swS X i * swU X Y c0 u0 i) / (swS X i * swC X c0 i + 2)

/-- Back substitution, `d` steps from the right end. -/
noncomputable def swB (c u : ℕ → ℝ) (n : ℕ) (last : ℝ) : ℕ → ℝ
  | 0 => last
  | d + 1 => c (n - 2 - d) * swB c u n last d + u (n - 2 - d)

theorem swS_mem (hX : ∀ i, i + 1 < n → X i < X (i + 1)) (i : ℕ) (h : i + 2 < n) : 0 < swS X i ∧ swS X i < 1 := by
  have a := hX i (by omega)
  have b := hX (i + 1) (by omega)
  rw [show i + 1 + 1 = i + 2 from rfl] at b
  have hd : 0 < X (i + 2) - X i := by linarith
  exact ⟨div_pos (by linarith) hd, (div_lt_one hd).2 (by linarith)⟩

theorem swC_mem (hX : ∀ i, i + 1 < n → X i < X (i + 1)) (c0 : ℝ) (h0 : -1 < c0) (h0' : c0 ≤ 0) (i : ℕ) (h : i + 1 < n) :
    -1 < swC X c0 i ∧ swC X c0 i ≤ 0 := by
  induction i with
  | zero => exact ⟨h0, h0'⟩
  | succ i ih =>
    obtain ⟨a, b⟩ := ih (by omega)
    obtain ⟨s0, s1⟩ := swS_mem hX i (by omega)
    have hp : 1 < swS X i * swC X c0 i + 2 := by nlinarith
    rw [swC]
    constructor
    · rw [lt_div_iff₀ (by linarith)]; nlinarith
    · exact div_nonpos_of_nonpos_of_nonneg (by linarith) (by linarith)

theorem swP_pos (hX : ∀ i, i + 1 < n → X i < X (i + 1)) (c0 : ℝ) (h0 : -1 < c0) (h0' : c0 ≤ 0) (i : ℕ) (h : i + 2 < n) :
    0 < swS X i * swC X c0 i + 2 := by
  obtain ⟨a, b⟩ := swC_mem hX c0 h0 h0' i (by omega)
  obtain ⟨s0, s1⟩ := swS_mem hX i (by omega)
  nlinarith

/-- What the workspace holds after the forward elimination has reached index `i`. -/
def Work (U : List XR) (n : ℕ) (u : ℕ → ℝ) (i : ℕ) : Prop := U.length = n ∧ ∀ j, j ≤ i → U[j]? = some (XR.fin (u j))

theorem cubicForward_eq (hX : ∀ i, i + 1 < n → X i < X (i + 1)) (M0 : ℕ → XR) (t : List (XYC XR)) (c0 u0 : ℝ) (h0 : -1 < c0)
    (h0' : c0 ≤ 0) (i : ℕ) (h : i + 2 < n) (U : List XR) (hU : Work U (n - 1) (swU X Y c0 u0) i) :
    (cubicForward (i + 1) (xycTab n X Y (fun j => if j ≤ i then XR.fin (swC X c0 j) else M0 j) t, U)).sat fun s =>
      s.1 = xycTab n X Y (fun j => if j ≤ i + 1 then XR.fin (swC X c0 j) else M0 j) t ∧ Work s.2 (n - 1) (swU X Y c0 u0) (i + 1) := by
  have x1 := hX i (by omega)
  have x2 := hX (i + 1) (by omega)
  have hb : X (i + 2) - X i ≠ 0 := by have : X (i + 1) < X (i + 2) := x2; linarith
  have ha : X (i + 1) - X i ≠ 0 := by linarith
  have hc : X (i + 2) - X (i + 1) ≠ 0 := by have : X (i + 1) < X (i + 2) := x2; linarith
  have hp := (swP_pos hX c0 h0 h0' i h).ne'
  rw [cubicForward]
  simp only [Nat.add_sub_cancel]
  rw [xycTab_rd _ _ i (by omega), ok_bind, xycTab_rd _ _ (i + 1) (by omega), ok_bind, xycTab_rd _ _ (i + 1 + 1) (by omega), ok_bind]
  simp only [le_refl, if_true, XR.fin_sub, XR.lit_eq]
  rw [show X (i + 1 + 1) = X (i + 2) from rfl, show Y (i + 1 + 1) = Y (i + 2) from rfl, XR.fin_div hb, XR.fin_div hc, XR.fin_div ha,
    XR.fin_mul, XR.fin_add, XR.fin_sub,
    show (X (i + 1) - X i) / (X (i + 2) - X i) = swS X i from rfl, show ((2 : ℚ) : ℝ) = 2 by norm_num, show ((1 : ℚ) : ℝ) = 1 by norm_num, XR.fin_div hp, xycTab_wr _ _ _ (by omega), ok_bind,
    XR.fin_sub, show (Y (i + 2) - Y (i + 1)) / (X (i + 2) - X (i + 1)) - (Y (i + 1) - Y i) / (X (i + 1) - X i) = ddJump X Y i from rfl,
    wr_lt _ (by rw [hU.1]; omega), ok_bind, rd_of (by rw [List.getElem?_set_self (by rw [hU.1]; omega)]), ok_bind,
    rd_of (by rw [List.getElem?_set_ne (by omega)]; exact hU.2 i le_rfl), ok_bind,
    wr_lt _ (by rw [List.length_set, hU.1]; omega), ok_bind, pure_eq, sat_ok]
  simp only [XR.fin_mul]
  rw [XR.fin_div hb, XR.fin_sub, show ((6 : ℚ) : ℝ) = 6 by norm_num, XR.fin_div hp]
  refine ⟨?_, ?_, ?_⟩
  · apply xycTab_congr
    intro j hj
    by_cases hji : j = i + 1
    · subst hji; simp [swC]
    · rw [Function.update_of_ne hji]
      by_cases hle : j ≤ i
      · rw [if_pos hle, if_pos (by omega)]
      · rw [if_neg hle, if_neg (by omega)]
  · simp [hU.1]
  · intro j hj
    by_cases hji : j = i + 1
    · subst hji
      rw [List.set_set, List.getElem?_set_self (by rw [hU.1]; omega)]
      rfl
    · rw [List.set_set, List.getElem?_set_ne (by omega)]
      exact hU.2 j (by omega)

theorem swB_succ (c u : ℕ → ℝ) (last : ℝ) (k : ℕ) (h : k + 1 < n) :
    swB c u n last (n - 1 - k) = c k * swB c u n last (n - 1 - (k + 1)) + u k := by
  obtain ⟨d, hd⟩ : ∃ d, n - 1 - k = d + 1 := ⟨n - 2 - k, by omega⟩
  rw [hd, swB, show n - 2 - d = k by omega, show n - 1 - (k + 1) = d by omega]

theorem cubicBack_all (c u : ℕ → ℝ) (last : ℝ) (t : List (XYC XR)) (U : List XR) (hU : Work U (n - 1) u (n - 2)) (hn : 2 ≤ n) :
    forN (n - 1) (fun k' xyc => cubicBack U (n - 2 - k') xyc)
      (xycTab n X Y (fun j => if j = n - 1 then XR.fin last else XR.fin (c j)) t) =
      ok (xycTab n X Y (fun j => XR.fin (swB c u n last (n - 1 - j))) t) := by
  rw [forN_eq (fun k' => xycTab n X Y (fun j => if n - 1 - k' ≤ j then XR.fin (swB c u n last (n - 1 - j)) else XR.fin (c j)) t)]
  · congr 1
    apply xycTab_congr
    intro j hj
    rw [if_pos (by omega)]
  · apply xycTab_congr
    intro j hj
    by_cases h : j = n - 1
    · subst h; simp [swB]
    · rw [if_neg h, if_neg (by omega)]
  · intro k hk
    rw [cubicBack, xycTab_rd _ _ _ (by omega), ok_bind, xycTab_rd _ _ _ (by omega), ok_bind, rd_of (hU.2 _ (by omega)), ok_bind]
    dsimp only
    rw [if_neg (by omega), if_pos (by omega), XR.fin_mul, XR.fin_add, xycTab_wr _ _ _ (by omega)]
    congr 1
    apply xycTab_congr
    intro j hj
    by_cases h : j = n - 2 - k
    · subst h
      rw [Function.update_self, if_pos (by omega), swB_succ _ _ _ (n - 2 - k) (by omega)]
    · rw [Function.update_of_ne h]
      by_cases h' : n - 1 - k ≤ j
      · rw [if_pos h', if_pos (by omega)]
      · rw [if_neg h', if_neg (by omega)]

/-- `c0`, `u0` of the sweep for the requested condition at the left end. -/
noncomputable def startC (yp1 : ℝ) : ℝ := if 0.99e30 < yp1 then 0 else -(1 / 2)
noncomputable def startU (X Y : ℕ → ℝ) (yp1 : ℝ) : ℝ :=
  if 0.99e30 < yp1 then 0 else 3 / (X 1 - X 0) * ((Y 1 - Y 0) / (X 1 - X 0) - yp1)

theorem startC_mem (yp1 : ℝ) : -1 < startC yp1 ∧ startC yp1 ≤ 0 := by
  unfold startC; split <;> norm_num

theorem cubicStart_eq (hX : X 0 < X 1) (M0 : ℕ → XR) (t : List (XYC XR)) (yp1 : ℝ) (U : List XR) (hn : 3 ≤ n) (hU : U.length = n - 1) :
    (cubicStart (xycTab n X Y M0 t) U (XR.fin yp1)).sat fun s =>
      s.1 = xycTab n X Y (fun j => if j ≤ 0 then XR.fin (startC yp1) else M0 j) t ∧ s.2.length = n - 1 ∧
        s.2[0]? = some (XR.fin (startU X Y yp1)) := by
  have hd : X 1 - X 0 ≠ 0 := by linarith
  have hcast : (((0.99e30 : ℚ)) : ℝ) = 0.99e30 := by norm_num
  rw [cubicStart, xycTab_rd _ _ 0 (by omega), ok_bind]
  have hupd : ∀ m : ℝ, xycTab n X Y (Function.update M0 0 (XR.fin m)) t =
      xycTab n X Y (fun j => if j ≤ 0 then XR.fin m else M0 j) t := by
    intro m
    apply xycTab_congr
    intro j hj
    by_cases h : j = 0
    · subst h; simp
    · rw [Function.update_of_ne h, if_neg (by omega)]
  rw [XR.lit_eq, hcast]
  by_cases h : 0.99e30 < yp1
  · rw [if_pos (by rw [XR.fin_gt]; exact h), wr_lt _ (by omega), ok_bind]
    dsimp only
    rw [XR.lit_eq, xycTab_wr _ _ 0 (by omega), ok_bind, pure_eq, sat_ok]
    refine ⟨?_, by simp [hU], ?_⟩
    · rw [hupd, startC, if_pos h]; simp
    · rw [List.getElem?_set_self (by omega), startU, if_pos h]; simp
  · rw [if_neg (by rw [XR.fin_gt]; exact h)]
    dsimp only
    rw [XR.lit_eq, xycTab_wr _ _ 0 (by omega), ok_bind, xycTab_rd _ _ 0 (by omega), ok_bind, xycTab_rd _ _ 1 (by omega), ok_bind]
    dsimp only
    simp only [XR.fin_sub, XR.lit_eq]
    rw [XR.fin_div hd, XR.fin_div hd, XR.fin_sub, XR.fin_mul, wr_lt _ (by omega), ok_bind, pure_eq, sat_ok]
    refine ⟨?_, by simp [hU], ?_⟩
    · rw [hupd, startC, if_neg h]
      have : (((-0.5 : ℚ)) : ℝ) = -(1 / 2) := by norm_num
      rw [this]
    · rw [List.getElem?_set_self (by omega), startU, if_neg h]; simp

/-- The second derivative at the right end. -/
noncomputable def endM (n : ℕ) (X Y : ℕ → ℝ) (c u : ℕ → ℝ) (ypn : ℝ) : ℝ :=
  if 0.99e30 < ypn then 0
  else (3 / (X (n - 1) - X (n - 2)) * (ypn - (Y (n - 1) - Y (n - 2)) / (X (n - 1) - X (n - 2))) - 1 / 2 * u (n - 2)) /
    (1 / 2 * c (n - 2) + 1)

theorem cubicEnd_eq (hX : X (n - 2) < X (n - 1)) (c u : ℕ → ℝ) (M0 : ℕ → XR) (t : List (XYC XR)) (ypn : ℝ) (U : List XR) (hn : 3 ≤ n)
    (hU : Work U (n - 1) u (n - 2)) (hc : -1 < c (n - 2)) :
    cubicEnd n (xycTab n X Y (fun j => if j ≤ n - 2 then XR.fin (c j) else M0 j) t) U (XR.fin ypn) =
      ok (xycTab n X Y (fun j => if j = n - 1 then XR.fin (endM n X Y c u ypn) else XR.fin (c j)) t) := by
  have hd : X (n - 1) - X (n - 2) ≠ 0 := by linarith
  have hcast : (((0.99e30 : ℚ)) : ℝ) = 0.99e30 := by norm_num
  have hupd : ∀ m : ℝ, xycTab n X Y (Function.update (fun j => if j ≤ n - 2 then XR.fin (c j) else M0 j) (n - 1) (XR.fin m)) t =
      xycTab n X Y (fun j => if j = n - 1 then XR.fin m else XR.fin (c j)) t := by
    intro m
    apply xycTab_congr
    intro j hj
    by_cases h : j = n - 1
    · subst h; simp
    · rw [Function.update_of_ne h, if_neg h, if_pos (by omega)]
  rw [cubicEnd, xycTab_rd _ _ (n - 1) (by omega), ok_bind, xycTab_rd _ _ (n - 2) (by omega), ok_bind, rd_of (hU.2 _ le_rfl), ok_bind]
  simp only [XR.lit_eq, hcast, XR.fin_sub, le_refl, if_true]
  by_cases h : 0.99e30 < ypn
  · rw [if_pos (by rw [XR.fin_gt]; exact h)]
    simp only [XR.fin_mul, XR.fin_sub, XR.fin_add]
    rw [XR.fin_div (by simp), xycTab_wr _ _ _ (by omega), hupd, endM, if_pos h]
    simp
  · rw [if_neg (by rw [XR.fin_gt]; exact h)]
    rw [XR.fin_div hd, XR.fin_div hd]
    simp only [XR.fin_mul, XR.fin_sub, XR.fin_add]
    have hh : (((0.5 : ℚ)) : ℝ) = 1 / 2 := by norm_num
    rw [hh, XR.fin_div (by push_cast; linarith), xycTab_wr _ _ _ (by omega), hupd, endM, if_neg h]
    norm_num

/-- The second derivatives the code computes. -/
noncomputable def splineM (n : ℕ) (X Y : ℕ → ℝ) (yp1 ypn : ℝ) (k : ℕ) : ℝ :=
  let c := swC X (startC yp1)
  let u := swU X Y (startC yp1) (startU X Y yp1)
  swB c u n (endM n X Y c u ypn) (n - 1 - k)

theorem interpCubicCalc_eq (hX : ∀ i, i + 1 < n → X i < X (i + 1)) (junk : ℕ → XR) (M0 : ℕ → XR) (t : List (XYC XR)) (yp1 ypn : ℝ)
    (hn : 3 ≤ n) :
    interpCubicCalc true junk (xycTab n X Y M0 t) n (XR.fin yp1) (XR.fin ypn) =
      ok (0, xycTab n X Y (fun i => XR.fin (splineM n X Y yp1 ypn i)) t) := by
  obtain ⟨hc1, hc2⟩ := startC_mem yp1
  rw [interpCubicCalc, if_neg (by omega), if_neg (by simp)]
  obtain ⟨⟨T1, U1⟩, e1, hT1, hU1, hU1'⟩ := cubicStart_eq (Y := Y) (hX 0 (by omega)) M0 t yp1 ((List.range (n - 1)).map junk) hn (by simp)
  rw [e1, ok_bind]
  dsimp only at hT1 hU1 hU1' ⊢
  have hloop : (forN (n - 2) (fun i' s => cubicForward (i' + 1) s) (T1, U1)).sat fun s =>
      s.1 = xycTab n X Y (fun j => if j ≤ n - 2 then XR.fin (swC X (startC yp1) j) else M0 j) t ∧
        Work s.2 (n - 1) (swU X Y (startC yp1) (startU X Y yp1)) (n - 2) := by
    refine forN_sat (fun i (s : List (XYC XR) × List XR) =>
      s.1 = xycTab n X Y (fun j => if j ≤ i then XR.fin (swC X (startC yp1) j) else M0 j) t ∧
        Work s.2 (n - 1) (swU X Y (startC yp1) (startU X Y yp1)) i) ?_ ?_
    · refine ⟨?_, hU1, ?_⟩
      · rw [hT1]
        apply xycTab_congr
        intro j hj
        by_cases h : j ≤ 0
        · obtain rfl : j = 0 := by omega
          simp [swC]
        · rw [if_neg h, if_neg h]
      · intro j hj
        obtain rfl : j = 0 := by omega
        exact hU1'
    · rintro i hi ⟨T, U⟩ ⟨hT, hU⟩
      dsimp only at hT hU
      rw [hT]
      exact cubicForward_eq hX M0 t _ _ hc1 hc2 i (by omega) U hU
  obtain ⟨⟨T2, U2⟩, e2, hT2, hU2⟩ := hloop
  dsimp only at hT2 hU2
  have x2 := hX (n - 2) (by omega)
  rw [show n - 2 + 1 = n - 1 by omega] at x2
  rw [e2, ok_bind]
  dsimp only
  rw [hT2, cubicEnd_eq x2 _ _ M0 t ypn U2 hn hU2 (swC_mem hX _ hc1 hc2 (n - 2) (by omega)).1, ok_bind,
    cubicBack_all _ _ _ t U2 hU2 (by omega), ok_bind]
  rfl

/-! ## The pieces -/

theorem cubicPiece_left (x0 y0 m0 x1 y1 m1 : ℝ) (h : x0 ≠ x1) : cubicPiece x0 y0 m0 x1 y1 m1 x0 = y0 := by
  have : x1 - x0 ≠ 0 := sub_ne_zero.2 h.symm
  rw [cubicPiece]; field_simp; ring

theorem cubicPiece_right (x0 y0 m0 x1 y1 m1 : ℝ) (h : x0 ≠ x1) : cubicPiece x0 y0 m0 x1 y1 m1 x1 = y1 := by
  have : x1 - x0 ≠ 0 := sub_ne_zero.2 h.symm
  rw [cubicPiece]; field_simp; ring

theorem cubicPiece_hasDeriv (x0 y0 m0 x1 y1 m1 x : ℝ) (h : x0 ≠ x1) :
    HasDerivAt (cubicPiece x0 y0 m0 x1 y1 m1)
      ((y1 - y0) / (x1 - x0) + m0 / 6 * ((x1 - x0) - 3 * (x1 - x) ^ 2 / (x1 - x0)) + m1 / 6 * (3 * (x - x0) ^ 2 / (x1 - x0) - (x1 - x0))) x := by
  have hne : x1 - x0 ≠ 0 := sub_ne_zero.2 h.symm
  have ha : HasDerivAt (fun x => x1 - x) (-1) x := by simpa using (hasDerivAt_id x).const_sub x1
  have hb : HasDerivAt (fun x => x - x0) 1 x := by simpa using (hasDerivAt_id x).sub_const x0
  have := ((((ha.const_mul y0).div_const (x1 - x0)).add ((hb.const_mul y1).div_const (x1 - x0))).add
    ((((ha.pow 3).div_const (x1 - x0)).sub (ha.mul_const (x1 - x0))).const_mul (m0 / 6))).add
    ((((hb.pow 3).div_const (x1 - x0)).sub (hb.mul_const (x1 - x0))).const_mul (m1 / 6))
  refine this.congr_deriv ?_
  push_cast
  field_simp
  ring

theorem cubicPiece_deriv2 (x0 y0 m0 x1 y1 m1 : ℝ) (h : x0 ≠ x1) (x : ℝ) :
    deriv (deriv (cubicPiece x0 y0 m0 x1 y1 m1)) x = m0 * (x1 - x) / (x1 - x0) + m1 * (x - x0) / (x1 - x0) := by
  have hne : x1 - x0 ≠ 0 := sub_ne_zero.2 h.symm
  have hd : deriv (cubicPiece x0 y0 m0 x1 y1 m1) = fun x => (y1 - y0) / (x1 - x0) +
      m0 / 6 * ((x1 - x0) - 3 * (x1 - x) ^ 2 / (x1 - x0)) + m1 / 6 * (3 * (x - x0) ^ 2 / (x1 - x0) - (x1 - x0)) := by
    funext x
    exact (cubicPiece_hasDeriv x0 y0 m0 x1 y1 m1 x h).deriv
  rw [hd]
  have ha : HasDerivAt (fun x => x1 - x) (-1) x := by simpa using (hasDerivAt_id x).const_sub x1
  have hb : HasDerivAt (fun x => x - x0) 1 x := by simpa using (hasDerivAt_id x).sub_const x0
  have := (((hasDerivAt_const x ((y1 - y0) / (x1 - x0))).add
    (((hasDerivAt_const x (x1 - x0)).sub (((ha.pow 2).const_mul 3).div_const (x1 - x0))).const_mul (m0 / 6)))).add
    (((((hb.pow 2).const_mul 3).div_const (x1 - x0)).sub_const (x1 - x0)).const_mul (m1 / 6))
  refine (this.congr_deriv (g' := m0 * (x1 - x) / (x1 - x0) + m1 * (x - x0) / (x1 - x0)) ?_).deriv
  push_cast
  field_simp
  ring

/-! ## The equations -/

theorem splineM_rec (yp1 ypn : ℝ) (k : ℕ) (h : k + 1 < n) :
    splineM n X Y yp1 ypn k = swC X (startC yp1) k * splineM n X Y yp1 ypn (k + 1) + swU X Y (startC yp1) (startU X Y yp1) k := by
  rw [splineM, splineM]
  exact swB_succ _ _ _ k h

theorem spline_tridiag (hX : ∀ i, i + 1 < n → X i < X (i + 1)) (yp1 ypn : ℝ) (i : ℕ) (h : i + 2 < n) :
    (X (i + 1) - X i) / 6 * splineM n X Y yp1 ypn i + (X (i + 2) - X i) / 3 * splineM n X Y yp1 ypn (i + 1) +
      (X (i + 2) - X (i + 1)) / 6 * splineM n X Y yp1 ypn (i + 2) = ddJump X Y i := by
  have r1 := splineM_rec (n := n) (X := X) (Y := Y) yp1 ypn i (by omega)
  have r2 := splineM_rec (n := n) (X := X) (Y := Y) yp1 ypn (i + 1) h
  obtain ⟨hc1, hc2⟩ := startC_mem yp1
  have hp := (swP_pos hX _ hc1 hc2 i h).ne'
  have x1 := hX i (by omega)
  have x2 : X (i + 1) < X (i + 2) := hX (i + 1) (by omega)
  have hb : X (i + 2) - X i ≠ 0 := by linarith
  rw [swC, swU, show i + 1 + 1 = i + 2 from rfl] at r2
  set c := swC X (startC yp1) i
  set u := swU X Y (startC yp1) (startU X Y yp1) i
  set s := swS X i with hs
  set m0 := splineM n X Y yp1 ypn i
  set m1 := splineM n X Y yp1 ypn (i + 1)
  set m2 := splineM n X Y yp1 ypn (i + 2)
  have r3 : m1 * (s * c + 2) = (s - 1) * m2 + (6 * ddJump X Y i / (X (i + 2) - X i) - s * u) := by
    rw [r2]; field_simp
  have r4 : s * m0 + 2 * m1 + (1 - s) * m2 = 6 * ddJump X Y i / (X (i + 2) - X i) := by
    rw [r1]; linarith
  have hsb : s * (X (i + 2) - X i) = X (i + 1) - X i := by rw [hs, swS]; field_simp
  have r5 : (s * m0 + 2 * m1 + (1 - s) * m2) * (X (i + 2) - X i) = 6 * ddJump X Y i := by
    rw [r4]; field_simp
  have r6 : (X (i + 1) - X i) * m0 + 2 * m1 * (X (i + 2) - X i) + (X (i + 2) - X (i + 1)) * m2 = 6 * ddJump X Y i := by
    rw [← r5]
    have e : X (i + 2) - X (i + 1) = (1 - s) * (X (i + 2) - X i) := by rw [sub_mul, hsb]; ring
    rw [e, ← hsb]; ring
  linarith

/-- C41: `zsl_interp_cubic_calc` on every strictly increasing table of at least three points, whatever the second derivatives were
before and whatever the new memory contains. It leaves the points alone and stores second derivatives `M` that make the pieces fit
together: at every interior knot neighbouring pieces have the same first and second derivative, and at each end the first derivative
is the requested one or, if the requested one exceeds 0.99e30, the second derivative is zero. -/
theorem interp_cubic_calc_correct (hX : ∀ i, i + 1 < n → X i < X (i + 1)) (junk : ℕ → XR) (M0 : ℕ → XR) (t : List (XYC XR))
    (yp1 ypn : ℝ) (hn : 3 ≤ n) :
    ∃ M : ℕ → ℝ, interpCubicCalc true junk (xycTab n X Y M0 t) n (XR.fin yp1) (XR.fin ypn) =
        ok (0, xycTab n X Y (fun i => XR.fin (M i)) t) ∧
      (∀ k, k + 1 < n → splinePiece X Y M k (X k) = Y k ∧ splinePiece X Y M k (X (k + 1)) = Y (k + 1)) ∧
      (∀ k, k + 2 < n → deriv (splinePiece X Y M k) (X (k + 1)) = deriv (splinePiece X Y M (k + 1)) (X (k + 1)) ∧
        deriv (deriv (splinePiece X Y M k)) (X (k + 1)) = deriv (deriv (splinePiece X Y M (k + 1))) (X (k + 1))) ∧
      (if 0.99e30 < yp1 then deriv (deriv (splinePiece X Y M 0)) (X 0) = 0 else deriv (splinePiece X Y M 0) (X 0) = yp1) ∧
      (if 0.99e30 < ypn then deriv (deriv (splinePiece X Y M (n - 2))) (X (n - 1)) = 0
        else deriv (splinePiece X Y M (n - 2)) (X (n - 1)) = ypn) := by
  have hne : ∀ k, k + 1 < n → X k ≠ X (k + 1) := fun k h => (hX k h).ne
  refine ⟨splineM n X Y yp1 ypn, interpCubicCalc_eq hX junk M0 t yp1 ypn hn, ?_, ?_, ?_, ?_⟩
  · intro k hk
    exact ⟨cubicPiece_left _ _ _ _ _ _ (hne k hk), cubicPiece_right _ _ _ _ _ _ (hne k hk)⟩
  · intro k hk
    have n1 := hne k (by omega)
    have n2 := hne (k + 1) (by omega)
    have d1 : X (k + 1) - X k ≠ 0 := sub_ne_zero.2 n1.symm
    have d2 : X (k + 2) - X (k + 1) ≠ 0 := sub_ne_zero.2 n2.symm
    constructor
    · rw [splinePiece, (cubicPiece_hasDeriv _ _ _ _ _ _ _ n1).deriv, splinePiece, (cubicPiece_hasDeriv _ _ _ _ _ _ _ n2).deriv]
      have h := spline_tridiag (Y := Y) hX yp1 ypn k hk
      rw [ddJump] at h
      rw [show k + 1 + 1 = k + 2 from rfl, sub_self]
      have e1 : (X (k + 1) - X k) ^ 2 / (X (k + 1) - X k) = X (k + 1) - X k := by field_simp
      have e2 : (X (k + 2) - X (k + 1)) ^ 2 / (X (k + 2) - X (k + 1)) = X (k + 2) - X (k + 1) := by field_simp
      rw [mul_div_assoc, mul_div_assoc, mul_div_assoc, mul_div_assoc, e1, e2]
      simp only [zero_pow, ne_eq, OfNat.ofNat_ne_zero, not_false_eq_true, zero_div, mul_zero, sub_zero, zero_sub]
      linarith
    · rw [splinePiece, cubicPiece_deriv2 _ _ _ _ _ _ n1, splinePiece, cubicPiece_deriv2 _ _ _ _ _ _ n2]
      rw [sub_self, mul_zero, mul_zero, zero_div, zero_div, zero_add, add_zero, mul_div_assoc, div_self d1,
        mul_div_assoc, div_self (show X (k + 1 + 1) - X (k + 1) ≠ 0 from d2)]
  · have n1 : X 0 ≠ X 1 := hne 0 (by omega)
    have d1 : X 1 - X 0 ≠ 0 := sub_ne_zero.2 n1.symm
    have r := splineM_rec (n := n) (X := X) (Y := Y) yp1 ypn 0 (by omega)
    rw [swC, swU] at r
    by_cases h : 0.99e30 < yp1
    · rw [if_pos h, splinePiece, cubicPiece_deriv2 _ _ _ _ _ _ n1, r, startC, startU, if_pos h, if_pos h]
      simp
    · rw [if_neg h, splinePiece, (cubicPiece_hasDeriv _ _ _ _ _ _ _ n1).deriv, r, startC, startU, if_neg h, if_neg h]
      field_simp
      ring
  · have n1 : X (n - 2) ≠ X (n - 2 + 1) := hne (n - 2) (by omega)
    have e : X (n - 1) = X (n - 2 + 1) := by rw [show n - 2 + 1 = n - 1 by omega]
    have eY : Y (n - 1) = Y (n - 2 + 1) := by rw [show n - 2 + 1 = n - 1 by omega]
    have d1 : X (n - 2 + 1) - X (n - 2) ≠ 0 := sub_ne_zero.2 n1.symm
    have r := splineM_rec (n := n) (X := X) (Y := Y) yp1 ypn (n - 2) (by omega)
    have hlast : splineM n X Y yp1 ypn (n - 2 + 1) =
        endM n X Y (swC X (startC yp1)) (swU X Y (startC yp1) (startU X Y yp1)) ypn := by
      rw [splineM, show n - 1 - (n - 2 + 1) = 0 by omega]
      rfl
    by_cases h : 0.99e30 < ypn
    · rw [if_pos h, splinePiece, cubicPiece_deriv2 _ _ _ _ _ _ n1, e, hlast, endM, if_pos h]
      simp
    · rw [if_neg h, splinePiece, (cubicPiece_hasDeriv _ _ _ _ _ _ _ n1).deriv, e]
      rw [hlast] at r ⊢
      obtain ⟨hc1, hc2⟩ := startC_mem yp1
      have hc := (swC_mem hX _ hc1 hc2 (n - 2) (by omega)).1
      rw [r]
      set c := swC X (startC yp1) (n - 2) with hcdef
      set u := swU X Y (startC yp1) (startU X Y yp1) (n - 2) with hudef
      have hden : 1 / 2 * c + 1 ≠ 0 := by linarith
      have hE : endM n X Y (swC X (startC yp1)) (swU X Y (startC yp1) (startU X Y yp1)) ypn * (1 / 2 * c + 1) =
          3 / (X (n - 2 + 1) - X (n - 2)) * (ypn - (Y (n - 2 + 1) - Y (n - 2)) / (X (n - 2 + 1) - X (n - 2))) - 1 / 2 * u := by
        rw [endM, if_neg h, e, eY, ← hcdef, ← hudef, div_mul_cancel₀ _ hden]
      set m := endM n X Y (swC X (startC yp1)) (swU X Y (startC yp1) (startU X Y yp1)) ypn
      set d := X (n - 2 + 1) - X (n - 2)
      have e2 : d ^ 2 / d = d := by field_simp
      have hE2 : d * (m * (1 / 2 * c + 1)) = 3 * (ypn - (Y (n - 2 + 1) - Y (n - 2)) / d) - d * (1 / 2 * u) := by
        rw [hE, mul_sub, ← mul_assoc, mul_div_cancel₀ _ d1]
      rw [sub_self, mul_div_assoc, mul_div_assoc, e2]
      simp only [zero_pow, ne_eq, OfNat.ofNat_ne_zero, not_false_eq_true, zero_div, mul_zero, sub_zero]
      linarith

/-- C41: fewer than three points, or no memory: an error code and an untouched table. -/
theorem interp_cubic_calc_reject (junk : ℕ → XR) (T : List (XYC XR)) (yp1 ypn : XR) :
    (n < 3 → ∀ a, interpCubicCalc a junk T n yp1 ypn = ok (-EINVAL, T)) ∧
    (3 ≤ n → interpCubicCalc false junk T n yp1 ypn = ok (-ENOMEM, T)) := by
  refine ⟨fun h a => by rw [interpCubicCalc, if_pos h], fun h => ?_⟩
  rw [interpCubicCalc, if_neg (by omega), if_pos (by simp)]

theorem cubicSearch_spec (M : ℕ → XR) (t) (x : ℝ) (hn : n ≤ 1073741824) :
    ∀ (fuel lo hi : ℕ), hi ≤ lo + fuel + 1 → lo < hi → hi < n → (lo = 0 ∨ X lo ≤ x) → (hi = n - 1 ∨ x < X hi) →
      ∃ k, cubicSearch fuel (xycTab n X Y M t) (XR.fin x) lo hi = ok (k, k + 1) ∧ k + 1 < n ∧ (k = 0 ∨ X k ≤ x) ∧
        (k + 1 = n - 1 ∨ x < X (k + 1)) := by
  intro fuel
  induction fuel with
  | zero =>
    intro lo hi h1 h2 h3 h4 h5
    obtain rfl : hi = lo + 1 := by omega
    exact ⟨lo, by rw [cubicSearch, if_neg (by omega)], h3, h4, h5⟩
  | succ fuel ih =>
    intro lo hi h1 h2 h3 h4 h5
    by_cases hg : hi - lo > 1
    · rw [cubicSearch, if_pos hg]
      dsimp only
      rw [if_neg (by omega), xycTab_rd _ _ _ (by omega), ok_bind]
      dsimp only
      by_cases hb : x < X ((hi + lo) / 2)
      · rw [if_pos (by rw [XR.fin_gt]; exact hb)]
        exact ih _ _ (by omega) (by omega) (by omega) h4 (Or.inr hb)
      · rw [if_neg (by rw [XR.fin_gt]; exact hb)]
        exact ih _ _ (by omega) (by omega) h3 (Or.inr (not_lt.1 hb)) h5
    · obtain rfl : hi = lo + 1 := by omega
      exact ⟨lo, by rw [cubicSearch, if_neg hg], h3, h4, h5⟩

/-- C41: `zsl_interp_cubic_arr` evaluates the piece over an interval that contains `x`; beyond the ends it uses the first or the last
piece. -/
theorem interp_cubic_arr_correct (hX : ∀ i, i + 1 < n → X i < X (i + 1)) (M : ℕ → ℝ) (t : List (XYC XR)) (x : ℝ) (y : XR) (hn : 3 ≤ n)
    (hn' : n ≤ 1073741824) :
    ∃ k, k + 1 < n ∧ (k = 0 ∨ X k ≤ x) ∧ (k + 2 = n ∨ x < X (k + 1)) ∧
      interpCubicArr (xycTab n X Y (fun i => XR.fin (M i)) t) n (XR.fin x) y = ok (0, XR.fin (splinePiece X Y M k x)) := by
  have key : ∃ k, k + 1 < n ∧ (k = 0 ∨ X k ≤ x) ∧ (k + 2 = n ∨ x < X (k + 1)) ∧
      (if CReal.le (XR.fin (X 0)) (XR.fin x) && CReal.gt (XR.fin (X 1)) (XR.fin x) then (ok (0, 1) : Out (ℕ × ℕ))
        else cubicSearch n (xycTab n X Y (fun i => XR.fin (M i)) t) (XR.fin x) 0 (n - 1)) = ok (k, k + 1) := by
    by_cases hc : X 0 ≤ x ∧ x < X 1
    · exact ⟨0, by omega, Or.inl rfl, Or.inr hc.2, by rw [if_pos (by rw [Bool.and_eq_true, XR.fin_le, XR.fin_gt]; exact hc)]⟩
    · obtain ⟨k, e, h1, h2, h3⟩ := cubicSearch_spec (X := X) (Y := Y) (fun i => XR.fin (M i)) t x hn' n 0 (n - 1) (by omega) (by omega)
        (by omega) (Or.inl rfl) (Or.inl rfl)
      refine ⟨k, h1, h2, ?_, by rw [if_neg (by rw [Bool.and_eq_true, XR.fin_le, XR.fin_gt]; exact hc), e]⟩
      rcases h3 with h3 | h3
      · exact Or.inl (by omega)
      · exact Or.inr h3
  obtain ⟨k, h1, h2, h3, e⟩ := key
  refine ⟨k, h1, h2, h3, ?_⟩
  have hd : X (k + 1) - X k ≠ 0 := by have := hX k h1; linarith
  rw [interpCubicArr, if_neg (by omega), xycTab_rd _ _ 0 (by omega), ok_bind, xycTab_rd _ _ 1 (by omega), ok_bind]
  dsimp only
  rw [e, ok_bind]
  dsimp only
  rw [xycTab_rd _ _ k (by omega), ok_bind, xycTab_rd _ _ (k + 1) h1, ok_bind]
  dsimp only
  simp only [XR.fin_sub, XR.lit_eq]
  rw [if_neg (by rw [XR.fin_eq]; simpa using hd), XR.fin_div hd, XR.fin_div hd]
  simp only [XR.fin_mul, XR.fin_sub, XR.fin_add]
  rw [XR.fin_div (by norm_num), XR.fin_add, pure_eq, splinePiece, cubicPiece]
  congr 3
  push_cast
  field_simp
  ring

/-- C41: the knots are reproduced exactly, whatever the second derivatives. -/
theorem interp_cubic_arr_knot (hX : ∀ i, i + 1 < n → X i < X (i + 1)) (M : ℕ → ℝ) (t : List (XYC XR)) (j : ℕ) (hj : j < n) (y : XR)
    (hn : 3 ≤ n) (hn' : n ≤ 1073741824) :
    interpCubicArr (xycTab n X Y (fun i => XR.fin (M i)) t) n (XR.fin (X j)) y = ok (0, XR.fin (Y j)) := by
  have hlt : ∀ a d, a + d + 1 < n → X a < X (a + d + 1) := by
    intro a d
    induction d with
    | zero => intro h; exact hX a h
    | succ d ih => intro h; exact (ih (by omega)).trans (hX (a + d + 1) h)
  have hlt' : ∀ a b, a < b → b < n → X a < X b := by
    intro a b hab hb
    have := hlt a (b - a - 1) (by omega)
    rwa [show a + (b - a - 1) + 1 = b by omega] at this
  obtain ⟨k, h1, h2, h3, e⟩ := interp_cubic_arr_correct (Y := Y) hX M t (X j) y hn hn'
  have hk : k ≤ j := by
    rcases h2 with h2 | h2
    · omega
    · by_contra hc
      have := hlt' j k (by omega) (by omega)
      linarith
  have hk' : j ≤ k + 1 := by
    rcases h3 with h3 | h3
    · omega
    · by_contra hc
      have := hlt' (k + 1) j (by omega) (by omega)
      linarith
  rw [e]
  rcases (by omega : j = k ∨ j = k + 1) with rfl | rfl
  · rw [splinePiece, cubicPiece_left _ _ _ _ _ _ (hX j h1).ne]
  · rw [splinePiece, cubicPiece_right _ _ _ _ _ _ (hX k h1).ne]

/-- C41: straight lines are reproduced exactly, inside and outside the table, with free ends as well as with the slope of the line
given at either end. -/
theorem interp_cubic_line (hX : ∀ i, i + 1 < n → X i < X (i + 1)) (p q : ℝ) (hY : ∀ i, i < n → Y i = p * X i + q) (junk : ℕ → XR)
    (M0 : ℕ → XR) (t : List (XYC XR)) (yp1 ypn x : ℝ) (y : XR) (h1 : 0.99e30 < yp1 ∨ yp1 = p) (h2 : 0.99e30 < ypn ∨ ypn = p)
    (hn : 3 ≤ n) (hn' : n ≤ 1073741824) :
    ∃ T, interpCubicCalc true junk (xycTab n X Y M0 t) n (XR.fin yp1) (XR.fin ypn) = ok (0, T) ∧
      interpCubicArr T n (XR.fin x) y = ok (0, XR.fin (p * x + q)) := by
  refine ⟨_, interpCubicCalc_eq hX junk M0 t yp1 ypn hn, ?_⟩
  have hslope : ∀ k, k + 1 < n → (Y (k + 1) - Y k) / (X (k + 1) - X k) = p := by
    intro k hk
    have : X (k + 1) - X k ≠ 0 := by have := hX k hk; linarith
    rw [hY _ hk, hY k (by omega)]
    field_simp
    ring
  have hu : ∀ k, k + 1 < n → swU X Y (startC yp1) (startU X Y yp1) k = 0 := by
    intro k
    induction k with
    | zero =>
      intro _
      rw [swU, startU]
      by_cases h : 0.99e30 < yp1
      · rw [if_pos h]
      · rw [if_neg h, show (Y 1 - Y 0) / (X 1 - X 0) = p from hslope 0 (by omega), h1.resolve_left h]
        simp
    | succ k ih =>
      intro h
      rw [swU, ih (by omega), ddJump, show (Y (k + 2) - Y (k + 1)) / (X (k + 2) - X (k + 1)) = p from hslope (k + 1) h,
        hslope k (by omega)]
      simp
  have hlast : endM n X Y (swC X (startC yp1)) (swU X Y (startC yp1) (startU X Y yp1)) ypn = 0 := by
    rw [endM]
    by_cases h : 0.99e30 < ypn
    · rw [if_pos h]
    · have := hslope (n - 2) (by omega)
      rw [show n - 2 + 1 = n - 1 by omega] at this
      rw [if_neg h, this, h2.resolve_left h, hu (n - 2) (by omega)]
      simp
  have hM : ∀ d, d < n → splineM n X Y yp1 ypn (n - 1 - d) = 0 := by
    intro d
    induction d with
    | zero =>
      intro _
      rw [splineM, show n - 1 - (n - 1 - 0) = 0 by omega]
      exact hlast
    | succ d ih =>
      intro hd
      rw [splineM_rec _ _ _ (by omega), show n - 1 - (d + 1) + 1 = n - 1 - d by omega, ih (by omega), hu _ (by omega)]
      simp
  obtain ⟨k, hk, -, -, e⟩ := interp_cubic_arr_correct (Y := Y) hX (splineM n X Y yp1 ypn) t x y hn hn'
  have hd : X (k + 1) - X k ≠ 0 := by have := hX k hk; linarith
  have m0 : splineM n X Y yp1 ypn k = 0 := by
    have := hM (n - 1 - k) (by omega); rwa [show n - 1 - (n - 1 - k) = k by omega] at this
  have m1 : splineM n X Y yp1 ypn (k + 1) = 0 := by
    have := hM (n - 1 - (k + 1)) (by omega); rwa [show n - 1 - (n - 1 - (k + 1)) = k + 1 by omega] at this
  rw [e, splinePiece, cubicPiece, m0, m1, hY k (by omega), hY _ hk]
  congr 3
  field_simp
  ring

/-- Four points on a parabola with the right slopes at both ends. -/
example (junk : ℕ → XR) (M0 : ℕ → XR) : ∃ M : ℕ → ℝ,
    interpCubicCalc true junk (xycTab 4 (fun i => i) (fun i => (i : ℝ) ^ 2) M0 []) 4 (XR.fin 0) (XR.fin 6) =
      ok (0, xycTab 4 (fun i => i) (fun i => (i : ℝ) ^ 2) (fun i => XR.fin (M i)) []) :=
  (interp_cubic_calc_correct (fun i _ => by simp) junk M0 [] 0 6 (by omega)).imp fun _ h => h.1

end Verif
