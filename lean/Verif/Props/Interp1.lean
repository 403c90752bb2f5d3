import Verif.Spec.Interp
import Mathlib.Tactic.Linarith
import Mathlib.Tactic.FieldSimp
import Mathlib.Tactic.Positivity
import Mathlib.Order.Fin.Basic

/-!
# Interpolation: blending (C36), table search (C37), linear interpolation (C38), its inverse (C39), nearest neighbour (C40)
-/

namespace Verif

open Out

/-! ## C36 -/

/-- C36: inside `[0,1]` the blend is the affine combination. -/
theorem interp_lerp_value (v0 v1 t : ℝ) (h0 : 0 ≤ t) (h1 : t ≤ 1) :
    interpLerp (XR.fin v0) (XR.fin v1) (XR.fin t) = (0, XR.fin (v0 + t * (v1 - v0))) := by
  rw [interpLerp, if_neg (by simp [h0, h1])]
  simp only [XR.lit_eq, XR.fin_sub, XR.fin_mul, XR.fin_add]
  congr 2
  push_cast
  ring

/-- C36: end points, bounds and monotonicity. -/
theorem interp_lerp_correct (v0 v1 : ℝ) :
    interpLerp (XR.fin v0) (XR.fin v1) (XR.fin 0) = (0, XR.fin v0) ∧
    interpLerp (XR.fin v0) (XR.fin v1) (XR.fin 1) = (0, XR.fin v1) ∧
    ∃ b : ℝ → ℝ, (∀ t, 0 ≤ t → t ≤ 1 → interpLerp (XR.fin v0) (XR.fin v1) (XR.fin t) = (0, XR.fin (b t)) ∧ Between v0 (b t) v1) ∧
      (v0 ≤ v1 → Monotone b) ∧ (v1 ≤ v0 → Antitone b) := by
  refine ⟨?_, ?_, fun t => v0 + t * (v1 - v0), ?_, ?_, ?_⟩
  · rw [interp_lerp_value _ _ _ le_rfl zero_le_one]; simp
  · rw [interp_lerp_value _ _ _ zero_le_one le_rfl]; simp
  · intro t h0 h1
    refine ⟨interp_lerp_value _ _ _ h0 h1, ?_⟩
    rcases le_total v0 v1 with h | h
    · left; constructor <;> nlinarith
    · right; constructor <;> nlinarith
  · intro h s t hst
    have := mul_le_mul_of_nonneg_right hst (sub_nonneg.2 h)
    simpa using this
  · intro h s t hst
    have := mul_le_mul_of_nonpos_right hst (sub_nonpos.2 h)
    simpa using this

/-- C36: outside `[0,1]` the result is -EINVAL and NaN, whatever the end points. -/
theorem interp_lerp_reject (v0 v1 : XR) (t : ℝ) (h : t < 0 ∨ 1 < t) :
    interpLerp v0 v1 (XR.fin t) = (-EINVAL, XR.nan) := by
  have e : (CReal.lt (XR.fin t) (lit 0) || CReal.gt (XR.fin t) (lit 1)) = true := by
    rw [Bool.or_eq_true]
    rcases h with h | h
    · left; simpa using h
    · right; simpa using h
  rw [interpLerp, if_pos e]
  rfl

/-- C36: a NaN parameter is not detected: the call reports success and returns NaN. -/
theorem interp_lerp_nan (v0 v1 : ℝ) : interpLerp (XR.fin v0) (XR.fin v1) XR.nan = (0, XR.nan) := by
  have e : (CReal.lt XR.nan (lit 0) || CReal.gt XR.nan (lit 1 : XR)) = false := by
    simp [CReal.gt, CReal.lt, XR.lt]
  simp only [interpLerp, e, Bool.false_eq_true, if_false]
  rfl

example : interpLerp (XR.fin 2) (XR.fin 6) (XR.fin (1 / 4)) = (0, XR.fin 3) := by
  rw [interp_lerp_value _ _ _ (by norm_num) (by norm_num)]; norm_num

/-! ## C37 -/

section
variable {n : ℕ}

theorem toU32_of {n : ℕ} (h : n < 4294967296) : toU32 n = n := Nat.mod_eq_of_lt h

theorem toI32_of {n : ℕ} (h : n < 2147483648) : toI32 n = n := by
  rw [toI32, toU32_of (by omega), if_pos h]

theorem xyTab_rd (xs ys : Fin n → ℝ) (t) (i : Fin n) :
    rd (xyTab xs ys t) i = ok ⟨XR.fin (xs i), XR.fin (ys i)⟩ := by
  apply rd_of
  simp [xyTab, List.getElem?_append]

theorem xyTab_rd' (xs ys : Fin n → ℝ) (t) (i : ℕ) (h : i < n) :
    rd (xyTab xs ys t) i = ok ⟨XR.fin (xs ⟨i, h⟩), XR.fin (ys ⟨i, h⟩)⟩ := xyTab_rd xs ys t ⟨i, h⟩

/-- The bisection, for whatever test `p` the comparison amounts to. -/
theorem findXLoop_spec (xs ys : Fin n → ℝ) (t) (x : XR) (order : Bool) (hn : n < 2147483648) (p : ℕ → Prop)
    (hp : ∀ (i : ℕ) (h : i < n), ((CReal.ge x (XR.fin (xs ⟨i, h⟩)) && order) || (CReal.le x (XR.fin (xs ⟨i, h⟩)) && !order)) = true ↔ p i) :
    ∀ (fuel lo hi : ℕ), hi ≤ lo + fuel + 1 → lo < hi → hi ≤ n → (lo = 0 ∨ p lo) → (hi = n ∨ ¬p hi) →
      ∃ l, findXLoop fuel (xyTab xs ys t) x order lo hi = ok l ∧ l < n ∧ (l = 0 ∨ p l) ∧ (l + 1 = n ∨ ¬p (l + 1)) := by
  intro fuel
  induction fuel with
  | zero =>
    intro lo hi h1 h2 h3 h4 h5
    refine ⟨lo, by rw [findXLoop, if_neg (by omega)], by omega, h4, ?_⟩
    obtain rfl : hi = lo + 1 := by omega
    exact h5
  | succ fuel ih =>
    intro lo hi h1 h2 h3 h4 h5
    by_cases hg : hi - lo > 1
    · rw [findXLoop, if_pos hg]
      have hm : toU32 (hi + lo) / 2 = (hi + lo) / 2 := by rw [toU32_of (by omega)]
      dsimp only
      rw [hm, xyTab_rd' _ _ _ ((hi + lo) / 2) (by omega), ok_bind]
      by_cases hb : p ((hi + lo) / 2)
      · rw [if_pos ((hp _ (by omega)).2 hb)]
        exact ih _ _ (by omega) (by omega) h3 (Or.inr hb) h5
      · rw [if_neg (fun h => hb ((hp _ (by omega)).1 h))]
        exact ih _ _ (by omega) (by omega) (by omega) h4 (Or.inr hb)
    · rw [findXLoop, if_neg hg]
      refine ⟨lo, rfl, by omega, h4, ?_⟩
      obtain rfl : hi = lo + 1 := by omega
      exact h5

/-- C37: fewer than two points. -/
theorem interp_find_x_short (xy : List (XY XR)) (x : XR) (h : n < 2) : interpFindX xy n x = ok (-EINVAL, -1) := by
  rw [interpFindX, if_pos h]

/-- C37: ascending tables (repeated abscissas allowed). -/
theorem interp_find_x_asc (xs ys : Fin n → ℝ) (t : List (XY XR)) (x : ℝ) (h2 : 2 ≤ n) (hn : n < 2147483648) (hm : Monotone xs) :
    (x < xs ⟨0, by omega⟩ → interpFindX (xyTab xs ys t) n (XR.fin x) = ok (-EINVAL, -1)) ∧
    (xs ⟨n - 1, by omega⟩ < x → interpFindX (xyTab xs ys t) n (XR.fin x) = ok (-EINVAL, (n : Int))) ∧
    (xs ⟨0, by omega⟩ ≤ x → x ≤ xs ⟨n - 1, by omega⟩ → ∃ (i : ℕ) (h : i + 1 < n),
      interpFindX (xyTab xs ys t) n (XR.fin x) = ok (0, (i : Int)) ∧ xs ⟨i, by omega⟩ ≤ x ∧ x ≤ xs ⟨i + 1, h⟩) := by
  have hord : CReal.ge (XR.fin (xs ⟨n - 1, by omega⟩)) (XR.fin (xs ⟨0, by omega⟩)) = true := by
    rw [XR.fin_ge]; exact hm (Fin.mk_le_mk.2 (by omega))
  have hle : xs ⟨0, by omega⟩ ≤ xs ⟨n - 1, by omega⟩ := hm (Fin.mk_le_mk.2 (by omega))
  have start : interpFindX (xyTab xs ys t) n (XR.fin x) =
      if xs ⟨n - 1, by omega⟩ < x then ok (-EINVAL, (n : Int)) else if x < xs ⟨0, by omega⟩ then ok (-EINVAL, -1)
      else (findXLoop n (xyTab xs ys t) (XR.fin x) true 0 n).bind fun lo =>
        if x = xs ⟨0, by omega⟩ then ok (0, 0) else if x = xs ⟨n - 1, by omega⟩ then ok (0, ((n - 2 : ℕ) : Int)) else ok (0, toI32 lo) := by
    rw [interpFindX, if_neg (by omega), xyTab_rd' _ _ _ (n - 1) (by omega), ok_bind, xyTab_rd' _ _ _ 0 (by omega), ok_bind]
    dsimp only
    rw [hord, toI32_of hn, toU32_of (by omega), toI32_of (n := n - 2) (by omega)]
    simp only [Bool.and_true, Bool.not_true, Bool.and_false, Bool.or_false, XR.fin_gt, XR.fin_lt, XR.fin_eq]
    rfl
  refine ⟨fun h => ?_, fun h => ?_, fun h0 h1 => ?_⟩
  · rw [start, if_neg (by linarith), if_pos h]
  · rw [start, if_pos h]
  · obtain ⟨l, e, hl, ha, hb⟩ := findXLoop_spec xs ys t (XR.fin x) true hn (fun i => ∀ h : i < n, xs ⟨i, h⟩ ≤ x)
      (fun i h => by simp [h]) n 0 n (by omega) (by omega) le_rfl (Or.inl rfl) (Or.inl rfl)
    rw [start, if_neg (by linarith), if_neg (by linarith), e]
    simp only [Out.bind]
    by_cases c0 : x = xs ⟨0, by omega⟩
    · exact ⟨0, by omega, by rw [if_pos c0]; rfl, c0.ge, c0.le.trans (hm (Fin.mk_le_mk.2 (by omega)))⟩
    by_cases c1 : x = xs ⟨n - 1, by omega⟩
    · refine ⟨n - 2, by omega, by rw [if_neg c0, if_pos c1], ?_, ?_⟩
      · rw [c1]; exact hm (Fin.mk_le_mk.2 (by omega))
      · rw [c1]; exact hm (Fin.mk_le_mk.2 (by omega))
    · have hlast : l + 1 ≠ n := by
        intro hl1
        rcases ha with ha | ha
        · omega
        · have := ha hl
          have e2 : (⟨l, hl⟩ : Fin n) = ⟨n - 1, by omega⟩ := Fin.ext (by simp; omega)
          rw [e2] at this
          exact c1 (le_antisymm h1 this)
      refine ⟨l, by omega, by rw [if_neg c0, if_neg c1, toI32_of (by omega)], ?_, ?_⟩
      · rcases ha with ha | ha
        · subst ha; exact h0
        · exact ha hl
      · rcases hb with hb | hb
        · omega
        · push Not at hb
          exact hb.2.le

/-- C37: descending tables. -/
theorem interp_find_x_desc (xs ys : Fin n → ℝ) (t : List (XY XR)) (x : ℝ) (h2 : 2 ≤ n) (hn : n < 2147483648) (hm : Antitone xs)
    (hlt : xs ⟨n - 1, by omega⟩ < xs ⟨0, by omega⟩) :
    (xs ⟨0, by omega⟩ < x → interpFindX (xyTab xs ys t) n (XR.fin x) = ok (-EINVAL, -1)) ∧
    (x < xs ⟨n - 1, by omega⟩ → interpFindX (xyTab xs ys t) n (XR.fin x) = ok (-EINVAL, (n : Int))) ∧
    (xs ⟨n - 1, by omega⟩ ≤ x → x ≤ xs ⟨0, by omega⟩ → ∃ (i : ℕ) (h : i + 1 < n),
      interpFindX (xyTab xs ys t) n (XR.fin x) = ok (0, (i : Int)) ∧ xs ⟨i + 1, h⟩ ≤ x ∧ x ≤ xs ⟨i, by omega⟩) := by
  have hord : CReal.ge (XR.fin (xs ⟨n - 1, by omega⟩)) (XR.fin (xs ⟨0, by omega⟩)) = false := by
    rw [XR.fin_ge_false]; exact hlt
  have start : interpFindX (xyTab xs ys t) n (XR.fin x) =
      if x < xs ⟨n - 1, by omega⟩ then ok (-EINVAL, (n : Int)) else if xs ⟨0, by omega⟩ < x then ok (-EINVAL, -1)
      else (findXLoop n (xyTab xs ys t) (XR.fin x) false 0 n).bind fun lo =>
        if x = xs ⟨0, by omega⟩ then ok (0, 0) else if x = xs ⟨n - 1, by omega⟩ then ok (0, ((n - 2 : ℕ) : Int)) else ok (0, toI32 lo) := by
    rw [interpFindX, if_neg (by omega), xyTab_rd' _ _ _ (n - 1) (by omega), ok_bind, xyTab_rd' _ _ _ 0 (by omega), ok_bind]
    dsimp only
    rw [hord, toI32_of hn, toU32_of (by omega), toI32_of (n := n - 2) (by omega)]
    simp only [Bool.and_true, Bool.not_false, Bool.and_false, Bool.false_or, XR.fin_gt, XR.fin_lt, XR.fin_eq]
    rfl
  refine ⟨fun h => ?_, fun h => ?_, fun h1 h0 => ?_⟩
  · rw [start, if_neg (by linarith), if_pos h]
  · rw [start, if_pos h]
  · obtain ⟨l, e, hl, ha, hb⟩ := findXLoop_spec xs ys t (XR.fin x) false hn (fun i => ∀ h : i < n, x ≤ xs ⟨i, h⟩)
      (fun i h => by simp [h]) n 0 n (by omega) (by omega) le_rfl (Or.inl rfl) (Or.inl rfl)
    rw [start, if_neg (by linarith), if_neg (by linarith), e]
    simp only [Out.bind]
    by_cases c0 : x = xs ⟨0, by omega⟩
    · exact ⟨0, by omega, by rw [if_pos c0]; rfl, (hm (Fin.mk_le_mk.2 (by omega))).trans c0.ge, c0.le⟩
    by_cases c1 : x = xs ⟨n - 1, by omega⟩
    · refine ⟨n - 2, by omega, by rw [if_neg c0, if_pos c1], ?_, ?_⟩
      · rw [c1]; exact hm (Fin.mk_le_mk.2 (by omega))
      · rw [c1]; exact hm (Fin.mk_le_mk.2 (by omega))
    · have hlast : l + 1 ≠ n := by
        intro hl1
        rcases ha with ha | ha
        · omega
        · have := ha hl
          have e2 : (⟨l, hl⟩ : Fin n) = ⟨n - 1, by omega⟩ := Fin.ext (by simp; omega)
          rw [e2] at this
          exact c1 (le_antisymm this h1)
      refine ⟨l, by omega, by rw [if_neg c0, if_neg c1, toI32_of (by omega)], ?_, ?_⟩
      · rcases hb with hb | hb
        · omega
        · push Not at hb
          exact hb.2.le
      · rcases ha with ha | ha
        · subst ha; exact h0
        · exact ha hl

/-- C37 fails for tables of 2^31 points or more: the index is an `int`, and a value beyond the end of the table is reported at a negative index.
In a table of 2^32 - 1 points it is the index that stands for values before the beginning. -/
theorem interp_find_x_huge (xs ys : Fin n → ℝ) (t : List (XY XR)) (x : ℝ) (h2 : 2147483648 ≤ n) (hn : n < 4294967296) (hm : Monotone xs)
    (hx : xs ⟨n - 1, by omega⟩ < x) :
    interpFindX (xyTab xs ys t) n (XR.fin x) = ok (-EINVAL, (n : Int) - 4294967296) ∧ (n : Int) - 4294967296 < 0 := by
  have hord : CReal.ge (XR.fin (xs ⟨n - 1, by omega⟩)) (XR.fin (xs ⟨0, by omega⟩)) = true := by
    rw [XR.fin_ge]; exact hm (Fin.mk_le_mk.2 (by omega))
  refine ⟨?_, by omega⟩
  rw [interpFindX, if_neg (by omega), xyTab_rd' _ _ _ (n - 1) (by omega), ok_bind, xyTab_rd' _ _ _ 0 (by omega), ok_bind]
  dsimp only
  rw [hord, if_pos (by simp [hx]), toI32, toU32_of hn, if_neg (by omega)]
  rfl

/-- A table which meets the hypotheses. -/
example : interpFindX (xyTab (fun i : Fin 4294967295 => (i.val : ℝ)) (fun _ => 0) []) 4294967295 (XR.fin 4294967295) = ok (-EINVAL, -1) := by
  have := (interp_find_x_huge (fun i : Fin 4294967295 => (i.val : ℝ)) (fun _ => 0) [] 4294967295 (by norm_num) (by norm_num)
    (fun a b h => Nat.cast_le.2 (Fin.le_def.1 h)) (by norm_num)).1
  simpa using this

/-- Three points: `find_x` at 2.5 in the table 1, 2, 3 answers 1. -/
example (ys : Fin 3 → ℝ) (t) : ∃ (i : ℕ) (h : i + 1 < 3), interpFindX (xyTab ![1, 2, 3] ys t) 3 (XR.fin 2.5) = ok (0, (i : Int)) ∧
    (![1, 2, 3] : Fin 3 → ℝ) ⟨i, by omega⟩ ≤ 2.5 ∧ 2.5 ≤ (![1, 2, 3] : Fin 3 → ℝ) ⟨i + 1, h⟩ :=
  (interp_find_x_asc ![1, 2, 3] ys t 2.5 (by omega) (by omega)
    (by rw [Fin.monotone_iff_le_succ]; intro i; fin_cases i <;> norm_num [Fin.succ])).2.2 (by norm_num) (by norm_num)

/-! ## C38 -/

theorem tooClose_fin (d : ℝ) : tooClose (XR.fin d) = true ↔ |d| < 1e-6 := by
  rw [tooClose, XR.fin_neg, Bool.and_eq_true, XR.lit_eq, XR.fin_lt, XR.fin_lt, abs_lt]
  have : (((1e-6 : ℚ)) : ℝ) = 1e-6 := by norm_num
  rw [this]
  constructor
  · rintro ⟨a, b⟩; constructor <;> linarith
  · rintro ⟨a, b⟩; constructor <;> linarith

theorem tooClose_fin_false (d : ℝ) : tooClose (XR.fin d) = false ↔ 1e-6 ≤ |d| := by
  rw [← Bool.not_eq_true, tooClose_fin, not_lt]

theorem chord_left (x1 y1 x3 y3 : ℝ) : chord x1 y1 x3 y3 x1 = y1 := by simp [chord]

theorem chord_right (x1 y1 x3 y3 : ℝ) (h : x1 ≠ x3) : chord x1 y1 x3 y3 x3 = y3 := by
  have : x3 - x1 ≠ 0 := sub_ne_zero.2 h.symm
  rw [chord, div_mul_cancel₀ _ this]; ring

theorem chord_between (x1 y1 x3 y3 x : ℝ) (h1 : x1 ≤ x) (h3 : x ≤ x3) (h : x1 < x3) : Between y1 (chord x1 y1 x3 y3 x) y3 := by
  have hd : 0 < x3 - x1 := sub_pos.2 h
  have hs : (y3 - y1) / (x3 - x1) * (x - x1) = (y3 - y1) * ((x - x1) / (x3 - x1)) := by ring
  have s0 : 0 ≤ (x - x1) / (x3 - x1) := div_nonneg (by linarith) hd.le
  have s1 : (x - x1) / (x3 - x1) ≤ 1 := (div_le_one hd).2 (by linarith)
  rw [chord, hs]
  rcases le_total y1 y3 with h | h
  · left; constructor <;> nlinarith
  · right; constructor <;> nlinarith

/-- C38: on a segment at least 1e-6 wide `zsl_interp_lin_y` returns the point of the chord, between the two ordinates. -/
theorem interp_lin_y_correct (x1 y1 x3 y3 x : ℝ) (hw : 1e-6 ≤ x3 - x1) (h1 : x1 ≤ x) (h3 : x ≤ x3) :
    interpLinY ⟨XR.fin x1, XR.fin y1⟩ ⟨XR.fin x3, XR.fin y3⟩ (XR.fin x) = (0, XR.fin (chord x1 y1 x3 y3 x)) ∧
    Between y1 (chord x1 y1 x3 y3 x) y3 ∧ chord x1 y1 x3 y3 x1 = y1 ∧ chord x1 y1 x3 y3 x3 = y3 := by
  have hd : (0 : ℝ) < x3 - x1 := lt_of_lt_of_le (by norm_num) hw
  refine ⟨?_, chord_between _ _ _ _ _ h1 h3 (by linarith), chord_left .., chord_right _ _ _ _ (by intro h; linarith)⟩
  rw [interpLinY]
  dsimp only
  rw [XR.fin_sub, if_neg (by rw [tooClose_fin, abs_of_pos hd]; linarith)]
  rw [if_neg (by rw [Bool.or_eq_true, XR.fin_lt, XR.fin_gt]; push Not; exact ⟨h1, h3⟩)]
  simp only [XR.fin_sub, XR.fin_mul]
  rw [XR.fin_div hd.ne', XR.fin_add, chord]
  congr 2
  ring

/-- C38: outside the segment, or on a segment narrower than 1e-6, the answer is -EINVAL and NaN. -/
theorem interp_lin_y_reject (x1 y1 x3 y3 x : ℝ) (h : x < x1 ∨ x3 < x ∨ |x3 - x1| < 1e-6) :
    interpLinY ⟨XR.fin x1, XR.fin y1⟩ ⟨XR.fin x3, XR.fin y3⟩ (XR.fin x) = (-EINVAL, XR.nan) := by
  rw [interpLinY]
  dsimp only
  rw [XR.fin_sub]
  by_cases hc : |x3 - x1| < 1e-6
  · rw [if_pos ((tooClose_fin _).2 hc)]; rfl
  · rw [if_neg (by rw [tooClose_fin]; exact hc), if_pos]
    · rfl
    · rw [Bool.or_eq_true, XR.fin_lt, XR.fin_gt]
      rcases h with h | h | h
      · exact Or.inl h
      · exact Or.inr h
      · exact absurd h hc

theorem rdI_nat {α : Type} (b : List α) (i : ℕ) : rdI b (i : Int) = rd b i := by
  rw [rdI, if_pos (Int.natCast_nonneg i), Int.toNat_natCast]

/-- C38: on an ascending table whose abscissas are at least 1e-6 apart, inside the range the value is that of the chord of a table
interval containing `x`; it therefore lies between the neighbouring ordinates. -/
theorem interp_lin_y_arr_correct (xs ys : Fin n → ℝ) (t : List (XY XR)) (x : ℝ) (h2 : 2 ≤ n) (hn : n < 2147483648)
    (hm : ∀ (i : ℕ) (h : i + 1 < n), 1e-6 ≤ xs ⟨i + 1, h⟩ - xs ⟨i, by omega⟩)
    (h0 : xs ⟨0, by omega⟩ ≤ x) (h1 : x ≤ xs ⟨n - 1, by omega⟩) :
    ∃ (i : ℕ) (h : i + 1 < n), xs ⟨i, by omega⟩ ≤ x ∧ x ≤ xs ⟨i + 1, h⟩ ∧
      interpLinYArr (xyTab xs ys t) n (XR.fin x) =
        ok (0, XR.fin (chord (xs ⟨i, by omega⟩) (ys ⟨i, by omega⟩) (xs ⟨i + 1, h⟩) (ys ⟨i + 1, h⟩) x)) ∧
      Between (ys ⟨i, by omega⟩) (chord (xs ⟨i, by omega⟩) (ys ⟨i, by omega⟩) (xs ⟨i + 1, h⟩) (ys ⟨i + 1, h⟩) x) (ys ⟨i + 1, h⟩) := by
  have hmono : Monotone xs := by
    obtain ⟨k, rfl⟩ : ∃ k, n = k + 1 := ⟨n - 1, by omega⟩
    rw [Fin.monotone_iff_le_succ]
    intro i
    have := hm i.val (by omega)
    have e : xs i.castSucc ≤ xs i.succ := by
      have e1 : (⟨i.val + 1, by omega⟩ : Fin (k + 1)) = i.succ := rfl
      have e2 : (⟨i.val, by omega⟩ : Fin (k + 1)) = i.castSucc := rfl
      rw [e1, e2] at this
      norm_num at this
      linarith
    exact e
  obtain ⟨i, hi, e, ha, hb⟩ := (interp_find_x_asc xs ys t x h2 hn hmono).2.2 h0 h1
  have hv := interp_lin_y_correct _ (ys ⟨i, by omega⟩) _ (ys ⟨i + 1, hi⟩) x (hm i hi) ha hb
  refine ⟨i, hi, ha, hb, ?_, hv.2.1⟩
  rw [interpLinYArr, e, ok_bind]
  dsimp only
  rw [if_neg (by simp), rdI_nat, xyTab_rd' _ _ _ i (by omega), ok_bind,
    show ((i : Int) + 1) = ((i + 1 : ℕ) : Int) by push_cast; rfl, rdI_nat, xyTab_rd' _ _ _ (i + 1) hi, ok_bind, hv.1]
  dsimp only
  rw [if_neg (by simp)]
  rfl

/-- C38: the table is reproduced at its knots. -/
theorem interp_lin_y_arr_knot (xs ys : Fin n → ℝ) (t : List (XY XR)) (h2 : 2 ≤ n) (hn : n < 2147483648)
    (hm : ∀ (i : ℕ) (h : i + 1 < n), 1e-6 ≤ xs ⟨i + 1, h⟩ - xs ⟨i, by omega⟩) (k : Fin n) :
    interpLinYArr (xyTab xs ys t) n (XR.fin (xs k)) = ok (0, XR.fin (ys k)) := by
  have hmono : StrictMono xs := by
    obtain ⟨m, rfl⟩ : ∃ m, n = m + 1 := ⟨n - 1, by omega⟩
    rw [Fin.strictMono_iff_lt_succ]
    intro i
    have := hm i.val (by omega)
    have e : xs i.castSucc < xs i.succ := by
      have e1 : (⟨i.val + 1, by omega⟩ : Fin (m + 1)) = i.succ := rfl
      have e2 : (⟨i.val, by omega⟩ : Fin (m + 1)) = i.castSucc := rfl
      rw [e1, e2] at this
      norm_num at this
      linarith
    exact e
  obtain ⟨i, hi, ha, hb, e, -⟩ := interp_lin_y_arr_correct xs ys t (xs k) h2 hn hm
    (hmono.monotone (Fin.mk_le_mk.2 (by omega))) (hmono.monotone (by rw [Fin.le_def]; simp; omega))
  have l1 := hmono.le_iff_le.1 ha
  have l2 := hmono.le_iff_le.1 hb
  rw [Fin.le_def] at l1 l2
  simp only at l1 l2
  rw [e]
  rcases (by omega : k.val = i ∨ k.val = i + 1) with h | h
  · have : k = ⟨i, by omega⟩ := Fin.ext h
    rw [this, chord_left]
  · have : k = ⟨i + 1, hi⟩ := Fin.ext h
    rw [this, chord_right]
    intro h
    have := hmono.injective h
    simp at this

/-- C38: outside the range the answer is -EINVAL and NaN. -/
theorem interp_lin_y_arr_reject (xs ys : Fin n → ℝ) (t : List (XY XR)) (x : ℝ) (h2 : 2 ≤ n) (hn : n < 2147483648)
    (hm : Monotone xs) (h : x < xs ⟨0, by omega⟩ ∨ xs ⟨n - 1, by omega⟩ < x) :
    interpLinYArr (xyTab xs ys t) n (XR.fin x) = ok (-EINVAL, XR.nan) := by
  obtain ⟨f1, f2, -⟩ := interp_find_x_asc xs ys t x h2 hn hm
  rcases h with h | h
  · rw [interpLinYArr, f1 h, ok_bind]; rfl
  · rw [interpLinYArr, f2 h, ok_bind]; rfl

/-- C38, remark: on a descending segment every lookup is refused, so `zsl_interp_lin_y_arr` is of no use on descending tables
although the search itself supports them. -/
theorem interp_lin_y_desc_reject (x1 y1 x3 y3 x : ℝ) (h : x3 < x1) :
    interpLinY ⟨XR.fin x1, XR.fin y1⟩ ⟨XR.fin x3, XR.fin y3⟩ (XR.fin x) = (-EINVAL, XR.nan) := by
  apply interp_lin_y_reject
  rcases lt_or_ge x x1 with h' | h'
  · exact Or.inl h'
  · exact Or.inr (Or.inl (by linarith))

example (t) : interpLinYArr (xyTab ![1, 2, 4] ![10, 20, 0] t) 3 (XR.fin 2) = ok (0, XR.fin 20) :=
  interp_lin_y_arr_knot ![1, 2, 4] ![10, 20, 0] t (by omega) (by omega)
    (by
      intro i h
      rcases (by omega : i = 0 ∨ i = 1) with rfl | rfl <;> norm_num) 1

/-! ## C39 -/

/-- C39, part: on an ascending segment at least 1e-6 wide whose ordinates differ, every `y` between them is inverted exactly.
Missing: segments of zero height, see `interp_lin_x_flat`. -/
theorem interp_lin_x_partial (x1 y1 x3 y3 y : ℝ) (hw : 1e-6 ≤ x3 - x1) (hy : y1 ≠ y3) (hb : Between y1 y y3) :
    ∃ x, interpLinX ⟨XR.fin x1, XR.fin y1⟩ ⟨XR.fin x3, XR.fin y3⟩ (XR.fin y) = (0, XR.fin x) ∧ x1 ≤ x ∧ x ≤ x3 ∧
      interpLinY ⟨XR.fin x1, XR.fin y1⟩ ⟨XR.fin x3, XR.fin y3⟩ (XR.fin x) = (0, XR.fin y) := by
  have hd : (0 : ℝ) < x3 - x1 := lt_of_lt_of_le (by norm_num) hw
  have hyd : y3 - y1 ≠ 0 := sub_ne_zero.2 hy.symm
  have hx : ((y3 - y) * x1 + (y - y1) * x3) / (y3 - y1) = x1 + (y - y1) / (y3 - y1) * (x3 - x1) := by
    field_simp; ring
  have s01 : 0 ≤ (y - y1) / (y3 - y1) ∧ (y - y1) / (y3 - y1) ≤ 1 := by
    rcases lt_or_gt_of_ne hy with h | h
    · have hp : 0 < y3 - y1 := by linarith
      have hb' : y1 ≤ y ∧ y ≤ y3 := by rcases hb with h | h <;> constructor <;> linarith [h.1, h.2]
      exact ⟨div_nonneg (by linarith) hp.le, (div_le_one hp).2 (by linarith)⟩
    · have hp : y3 - y1 < 0 := by linarith
      have hb' : y3 ≤ y ∧ y ≤ y1 := by rcases hb with h | h <;> constructor <;> linarith [h.1, h.2]
      exact ⟨div_nonneg_of_nonpos (by linarith) hp.le, (div_le_one_of_neg hp).2 (by linarith)⟩
  have hx1 : x1 ≤ x1 + (y - y1) / (y3 - y1) * (x3 - x1) := by nlinarith
  have hx3 : x1 + (y - y1) / (y3 - y1) * (x3 - x1) ≤ x3 := by nlinarith
  refine ⟨_, ?_, hx1, hx3, ?_⟩
  · rw [interpLinX]
    dsimp only
    rw [XR.fin_sub, if_neg (by rw [tooClose_fin, abs_of_pos hd]; linarith), if_neg]
    · simp only [XR.fin_sub, XR.fin_mul, XR.fin_add]
      rw [XR.fin_div hyd, hx]
    · rw [Bool.or_eq_true]
      rcases lt_or_gt_of_ne hy with h | h
      · have hb' : y1 ≤ y ∧ y ≤ y3 := by rcases hb with h | h <;> constructor <;> linarith [h.1, h.2]
        rw [if_pos ((XR.fin_lt _ _).2 h), if_pos ((XR.fin_lt _ _).2 h), XR.fin_lt, XR.fin_gt]
        push Not; exact hb'
      · have hb' : y3 ≤ y ∧ y ≤ y1 := by rcases hb with h | h <;> constructor <;> linarith [h.1, h.2]
        have hf : ¬(CReal.lt (XR.fin y1) (XR.fin y3) = true) := by rw [XR.fin_lt]; linarith
        rw [if_neg hf, if_neg hf, XR.fin_lt, XR.fin_gt]
        push Not; exact hb'
  · rw [(interp_lin_y_correct x1 y1 x3 y3 _ hw hx1 hx3).1]
    congr 2
    rw [chord]
    field_simp
    ring

/-- C39: an ordinate outside the segment, or a segment narrower than 1e-6, gives -EINVAL and NaN. -/
theorem interp_lin_x_reject (x1 y1 x3 y3 y : ℝ) (h : |x3 - x1| < 1e-6 ∨ ¬Between y1 y y3) :
    interpLinX ⟨XR.fin x1, XR.fin y1⟩ ⟨XR.fin x3, XR.fin y3⟩ (XR.fin y) = (-EINVAL, XR.nan) := by
  rw [interpLinX]
  dsimp only
  rw [XR.fin_sub]
  by_cases hc : |x3 - x1| < 1e-6
  · rw [if_pos ((tooClose_fin _).2 hc)]; rfl
  · have hb : ¬Between y1 y y3 := h.resolve_left hc
    rw [if_neg (by rw [tooClose_fin]; exact hc), if_pos]
    · rfl
    · rw [Bool.or_eq_true]
      by_contra hcon
      push Not at hcon
      apply hb
      by_cases hlt : y1 < y3
      · rw [if_pos ((XR.fin_lt _ _).2 hlt), if_pos ((XR.fin_lt _ _).2 hlt)] at hcon
        simp only [Bool.not_eq_true, XR.fin_lt_false, XR.fin_gt_false] at hcon
        exact Or.inl hcon
      · have hf : ¬(CReal.lt (XR.fin y1) (XR.fin y3) = true) := by rw [XR.fin_lt]; exact hlt
        rw [if_neg hf, if_neg hf] at hcon
        simp only [Bool.not_eq_true, XR.fin_lt_false, XR.fin_gt_false] at hcon
        exact Or.inr hcon

/-- C39 fails on a horizontal segment: the call reports success and delivers NaN, although every abscissa of the segment would do. -/
theorem interp_lin_x_flat (x1 x3 y : ℝ) (hw : 1e-6 ≤ |x3 - x1|) :
    interpLinX ⟨XR.fin x1, XR.fin y⟩ ⟨XR.fin x3, XR.fin y⟩ (XR.fin y) = (0, XR.nan) := by
  rw [interpLinX]
  dsimp only
  rw [XR.fin_sub, if_neg (by rw [tooClose_fin]; linarith), if_neg (by simp [CReal.gt, CReal.lt, XR.lt])]
  simp only [XR.fin_sub, XR.fin_mul, XR.fin_add, sub_self, zero_mul, add_zero, XR.fin_div_zero]
  simp [XR.infOf]

example : ∃ x, interpLinX ⟨XR.fin 0, XR.fin 5⟩ ⟨XR.fin 2, XR.fin 1⟩ (XR.fin 3) = (0, XR.fin x) ∧ 0 ≤ x ∧ x ≤ 2 ∧
    interpLinY ⟨XR.fin 0, XR.fin 5⟩ ⟨XR.fin 2, XR.fin 1⟩ (XR.fin x) = (0, XR.fin 3) :=
  interp_lin_x_partial 0 5 2 1 3 (by norm_num) (by norm_num) (Or.inr (by norm_num))

/-! ## C40 -/

/-- C40: what the code computes: the switch is at one and a half times the left abscissa. -/
theorem interp_nn_value (x1 y1 x3 y3 x : ℝ) (y : XR) (hw : 1e-6 ≤ x3 - x1) (h1 : x1 ≤ x) (h3 : x ≤ x3) :
    interpNn ⟨XR.fin x1, XR.fin y1⟩ ⟨XR.fin x3, XR.fin y3⟩ (XR.fin x) y = (0, XR.fin (if 3 / 2 * x1 ≤ x then y3 else y1)) := by
  have hd : (0 : ℝ) < x3 - x1 := lt_of_lt_of_le (by norm_num) hw
  rw [interpNn]
  dsimp only
  rw [XR.fin_sub, if_neg (by rw [tooClose_fin, abs_of_pos hd]; linarith),
    if_neg (by rw [Bool.or_eq_true, XR.fin_lt, XR.fin_gt]; push Not; exact ⟨h1, h3⟩)]
  have e : (((1.5 : ℚ)) : ℝ) = 3 / 2 := by norm_num
  rw [XR.lit_eq, XR.fin_mul, e]
  by_cases h : 3 / 2 * x1 ≤ x
  · rw [if_pos h, if_pos (by rw [XR.fin_ge]; linarith)]
  · rw [if_neg h, if_neg (by rw [XR.fin_ge]; linarith)]

/-- C40, part: the nearer point is returned when the right abscissa is twice the left one. Missing: every other segment, see
`interp_nn_wrong`. -/
theorem interp_nn_partial (x1 y1 y3 x : ℝ) (y : XR) (hw : 1e-6 ≤ x1) (h1 : x1 ≤ x) (h3 : x ≤ 2 * x1) :
    interpNn ⟨XR.fin x1, XR.fin y1⟩ ⟨XR.fin (2 * x1), XR.fin y3⟩ (XR.fin x) y =
      (0, XR.fin (if (x1 + 2 * x1) / 2 ≤ x then y3 else y1)) := by
  rw [interp_nn_value x1 y1 (2 * x1) y3 x y (by linarith) h1 h3]
  congr 3
  exact propext ⟨fun h => by linarith, fun h => by linarith⟩

/-- C40 fails: on every segment whose right abscissa is not twice the left one, some `x` inside it gets the ordinate of the end
point that is farther away. -/
theorem interp_nn_wrong (x1 y1 x3 y3 : ℝ) (y : XR) (hw : 1e-6 ≤ x3 - x1) (hne : x3 ≠ 2 * x1) :
    ∃ x, x1 ≤ x ∧ x ≤ x3 ∧
      ((x - x1 < x3 - x ∧ interpNn ⟨XR.fin x1, XR.fin y1⟩ ⟨XR.fin x3, XR.fin y3⟩ (XR.fin x) y = (0, XR.fin y3)) ∨
       (x3 - x < x - x1 ∧ interpNn ⟨XR.fin x1, XR.fin y1⟩ ⟨XR.fin x3, XR.fin y3⟩ (XR.fin x) y = (0, XR.fin y1))) := by
  have hd : (0 : ℝ) < x3 - x1 := lt_of_lt_of_le (by norm_num) hw
  rcases lt_or_gt_of_ne hne with h | h
  · -- the switch comes too late
    refine ⟨min x3 (((x1 + x3) / 2 + 3 / 2 * x1) / 2), ?_, min_le_left _ _, Or.inr ⟨?_, ?_⟩⟩
    · rw [le_min_iff]; constructor <;> linarith
    · have : (x1 + x3) / 2 < min x3 (((x1 + x3) / 2 + 3 / 2 * x1) / 2) := by rw [lt_min_iff]; constructor <;> linarith
      linarith
    · rw [interp_nn_value _ _ _ _ _ _ hw (by rw [le_min_iff]; constructor <;> linarith) (min_le_left _ _), if_neg]
      have := min_le_right x3 (((x1 + x3) / 2 + 3 / 2 * x1) / 2)
      linarith
  · -- the switch comes too early
    refine ⟨max x1 (((x1 + x3) / 2 + 3 / 2 * x1) / 2), le_max_left _ _, ?_, Or.inl ⟨?_, ?_⟩⟩
    · rw [max_le_iff]; constructor <;> linarith
    · have : max x1 (((x1 + x3) / 2 + 3 / 2 * x1) / 2) < (x1 + x3) / 2 := by rw [max_lt_iff]; constructor <;> linarith
      linarith
    · rw [interp_nn_value _ _ _ _ _ _ hw (le_max_left _ _) (by rw [max_le_iff]; constructor <;> linarith), if_pos]
      have := le_max_right x1 (((x1 + x3) / 2 + 3 / 2 * x1) / 2)
      linarith

/-- C40: outside the segment the call is refused and `*y2` left alone. -/
theorem interp_nn_reject (x1 x3 x : ℝ) (y1 y3 y : XR) (hw : 1e-6 ≤ |x3 - x1|) (h : x < x1 ∨ x3 < x) :
    interpNn ⟨XR.fin x1, y1⟩ ⟨XR.fin x3, y3⟩ (XR.fin x) y = (-EINVAL, y) := by
  rw [interpNn]
  dsimp only
  rw [XR.fin_sub, if_neg (by rw [tooClose_fin]; linarith), if_pos (by rw [Bool.or_eq_true, XR.fin_lt, XR.fin_gt]; exact h)]

/-- C40: outside the range of the table the answer of `zsl_interp_nn_arr` is -EINVAL and NaN. -/
theorem interp_nn_arr_reject (xs ys : Fin n → ℝ) (t : List (XY XR)) (x : ℝ) (y : XR) (h2 : 2 ≤ n) (hn : n < 2147483648)
    (hm : Monotone xs) (h : x < xs ⟨0, by omega⟩ ∨ xs ⟨n - 1, by omega⟩ < x) :
    interpNnArr (xyTab xs ys t) n (XR.fin x) y = ok (-EINVAL, XR.nan) := by
  obtain ⟨f1, f2, -⟩ := interp_find_x_asc xs ys t x h2 hn hm
  rcases h with h | h
  · rw [interpNnArr, f1 h, ok_bind]; rfl
  · rw [interpNnArr, f2 h, ok_bind]; rfl

/-- C40: what `zsl_interp_nn_arr` computes on an ascending table whose abscissas are at least 1e-6 apart: one of the two ordinates of a table
interval containing `x`, with the switch at one and a half times the left abscissa. -/
theorem interp_nn_arr_value (xs ys : Fin n → ℝ) (t : List (XY XR)) (x : ℝ) (y : XR) (h2 : 2 ≤ n) (hn : n < 2147483648)
    (hm : ∀ (i : ℕ) (h : i + 1 < n), 1e-6 ≤ xs ⟨i + 1, h⟩ - xs ⟨i, by omega⟩)
    (h0 : xs ⟨0, by omega⟩ ≤ x) (h1 : x ≤ xs ⟨n - 1, by omega⟩) :
    ∃ (i : ℕ) (h : i + 1 < n), xs ⟨i, by omega⟩ ≤ x ∧ x ≤ xs ⟨i + 1, h⟩ ∧
      interpNnArr (xyTab xs ys t) n (XR.fin x) y =
        ok (0, XR.fin (if 3 / 2 * xs ⟨i, by omega⟩ ≤ x then ys ⟨i + 1, h⟩ else ys ⟨i, by omega⟩)) := by
  have hmono : Monotone xs := by
    obtain ⟨k, rfl⟩ : ∃ k, n = k + 1 := ⟨n - 1, by omega⟩
    rw [Fin.monotone_iff_le_succ]
    intro i
    have := hm i.val (by omega)
    have e : xs i.castSucc ≤ xs i.succ := by
      have e1 : (⟨i.val + 1, by omega⟩ : Fin (k + 1)) = i.succ := rfl
      have e2 : (⟨i.val, by omega⟩ : Fin (k + 1)) = i.castSucc := rfl
      rw [e1, e2] at this
      norm_num at this
      linarith
    exact e
  obtain ⟨i, hi, e, ha, hb⟩ := (interp_find_x_asc xs ys t x h2 hn hmono).2.2 h0 h1
  have hv := interp_nn_value _ (ys ⟨i, by omega⟩) _ (ys ⟨i + 1, hi⟩) x y (hm i hi) ha hb
  refine ⟨i, hi, ha, hb, ?_⟩
  rw [interpNnArr, e, ok_bind]
  dsimp only
  rw [if_neg (by simp), rdI_nat, xyTab_rd' _ _ _ i (by omega), ok_bind,
    show ((i : Int) + 1) = ((i + 1 : ℕ) : Int) by push_cast; rfl, rdI_nat, xyTab_rd' _ _ _ (i + 1) hi, ok_bind, hv]
  dsimp only
  rw [if_neg (by simp)]
  rfl

/-- C40 fails for a whole table: with knots 1, 4, 7 the point 2 is given the ordinate of 4. -/
theorem interp_nn_arr_wrong (t : List (XY XR)) (y : XR) : interpNnArr (xyTab ![1, 4, 7] ![10, 20, 30] t) 3 (XR.fin 2) y = ok (0, XR.fin 20) := by
  obtain ⟨i, hi, ha, hb, h⟩ := interp_nn_arr_value ![1, 4, 7] ![10, 20, 30] t 2 y (by omega) (by omega)
    (by
      intro i h
      rcases (by omega : i = 0 ∨ i = 1) with rfl | rfl <;> norm_num) (by norm_num) (by norm_num)
  rw [h]
  rcases (by omega : i = 0 ∨ i = 1) with rfl | rfl
  · norm_num
  · norm_num at ha

end

/-- In the segment from 1 to 10 the point 2 is given the ordinate of 10. -/
example (y : XR) : interpNn ⟨XR.fin 1, XR.fin 7⟩ ⟨XR.fin 10, XR.fin 8⟩ (XR.fin 2) y = (0, XR.fin 8) := by
  rw [interp_nn_value _ _ _ _ _ _ (by norm_num) (by norm_num) (by norm_num), if_pos (by norm_num)]

end Verif
