import Verif.Lemmas.LocusReal

/-!
# The black body locus: which row is nearest
-/

namespace Verif.LT

open EF Finset

/-! ### The table in real numbers -/

theorem tab_length : tT.length = 304 ∧ tU.length = 304 ∧ tV.length = 304 := by decide +kernel

theorem tab_get {k : ℕ} (hk : k < 304) : ohno2014Table.getD k (0, 0, 0) =
    (((tT.getD k 0 : ℕ) : ℚ) / 1000000, ((tU.getD k 0 : ℕ) : ℚ) / 100000000, ((tV.getD k 0 : ℕ) : ℚ) / 100000000) := by
  obtain ⟨h1, h2, h3⟩ := tab_length
  have key : ∀ (a b c : List ℕ), a.length = 304 → b.length = 304 → c.length = 304 →
      ((a.zip (b.zip c)).map fun r => ((r.1 : ℚ) / 1000000, (r.2.1 : ℚ) / 100000000, (r.2.2 : ℚ) / 100000000)).getD k (0, 0, 0) =
      (((a.getD k 0 : ℕ) : ℚ) / 1000000, ((b.getD k 0 : ℕ) : ℚ) / 100000000, ((c.getD k 0 : ℕ) : ℚ) / 100000000) := by
    intro a b c ha hb hc
    rw [getD_lt (by simp [ha, hb, hc, hk]), getD_lt (by omega), getD_lt (by omega), getD_lt (by omega)]
    simp
  rw [tab_eq]
  exact key _ _ _ h1 h2 h3

theorem locusT_nat {k : ℕ} (hk : k < 304) : locusT k = ((tT.getD k 0 : ℕ) : ℝ) / 1000000 := by
  rw [locusT, tab_get hk]
  push_cast
  rfl

theorem locusU_nat {k : ℕ} (hk : k < 304) : locusU k = ((tU.getD k 0 : ℕ) : ℝ) / 100000000 := by
  rw [locusU, tab_get hk]
  push_cast
  rfl

theorem locusV_nat {k : ℕ} (hk : k < 304) : locusV k = ((tV.getD k 0 : ℕ) : ℝ) / 100000000 := by
  rw [locusV, tab_get hk]
  push_cast
  rfl

/-- The direction of the locus, row by row. -/
theorem cone_nat : ∀ i < 303, tU.getD (i + 1) 0 < tU.getD i 0 ∧
    10 * tV.getD (i + 1) 0 + tU.getD (i + 1) 0 ≤ 10 * tV.getD i 0 + tU.getD i 0 ∧
    10 * tV.getD i 0 + 33 * tU.getD (i + 1) 0 ≤ 10 * tV.getD (i + 1) 0 + 33 * tU.getD i 0 := by decide +kernel

/-- A direction the locus can take: u falls, v falls at most 3.3 times as fast and rises at most a tenth as fast. -/
def Cone (a b : ℝ) : Prop := a < 0 ∧ 10 * b ≤ -a ∧ 33 * a ≤ 10 * b

theorem Cone.add {a b c d : ℝ} (h : Cone a b) (h' : Cone c d) : Cone (a + c) (b + d) := by
  obtain ⟨h1, h2, h3⟩ := h
  obtain ⟨k1, k2, k3⟩ := h'
  exact ⟨by linarith, by linarith, by linarith⟩

theorem Cone.inner {a b c d : ℝ} (h : Cone a b) (h' : Cone c d) : 0 < a * c + b * d := by
  obtain ⟨h1, h2, h3⟩ := h
  obtain ⟨k1, k2, k3⟩ := h'
  have ac : 0 < a * c := mul_pos_of_neg_of_neg h1 k1
  rcases le_total 0 b with hb | hb <;> rcases le_total 0 d with hd | hd
  · nlinarith [mul_nonneg hb hd]
  · have : b * (-d) ≤ (-a / 10) * (-3.3 * c) := mul_le_mul (by linarith) (by norm_num; linarith) (by linarith) (by linarith)
    norm_num at this
    linarith
  · have : (-b) * d ≤ (-3.3 * a) * (-c / 10) := mul_le_mul (by norm_num; linarith) (by linarith) hd (by norm_num; linarith)
    norm_num at this
    linarith
  · nlinarith [mul_nonneg_of_nonpos_of_nonpos hb hd]

theorem cone_step {i : ℕ} (hi : i < 303) : Cone (locusU (i + 1) - locusU i) (locusV (i + 1) - locusV i) := by
  obtain ⟨h1, h2, h3⟩ := cone_nat i hi
  rw [locusU_nat (by omega : i < 304), locusU_nat (by omega : i + 1 < 304), locusV_nat (by omega : i < 304), locusV_nat (by omega : i + 1 < 304)]
  have h1' : ((tU.getD (i + 1) 0 : ℕ) : ℝ) < ((tU.getD i 0 : ℕ) : ℝ) := by exact_mod_cast h1
  have h2' : ((10 * tV.getD (i + 1) 0 + tU.getD (i + 1) 0 : ℕ) : ℝ) ≤ ((10 * tV.getD i 0 + tU.getD i 0 : ℕ) : ℝ) := by exact_mod_cast h2
  have h3' : ((10 * tV.getD i 0 + 33 * tU.getD (i + 1) 0 : ℕ) : ℝ) ≤ ((10 * tV.getD (i + 1) 0 + 33 * tU.getD i 0 : ℕ) : ℝ) := by exact_mod_cast h3
  push_cast at h2' h3'
  generalize ((tU.getD (i + 1) 0 : ℕ) : ℝ) = a at *
  generalize ((tU.getD i 0 : ℕ) : ℝ) = b at *
  generalize ((tV.getD (i + 1) 0 : ℕ) : ℝ) = c at *
  generalize ((tV.getD i 0 : ℕ) : ℝ) = d at *
  exact ⟨by linarith, by linarith, by linarith⟩

theorem cone_far {i j : ℕ} (hij : i < j) (hj : j < 304) : Cone (locusU j - locusU i) (locusV j - locusV i) := by
  induction j with
  | zero => omega
  | succ j ih =>
    rcases Nat.lt_or_ge i j with h | h
    · have := (ih h (by omega)).add (cone_step (i := j) (by omega))
      simpa using this
    · have : i = j := by omega
      subst this
      exact cone_step (by omega)

/-- The squared distance of two rows. -/
noncomputable def gap2 (i j : ℕ) : ℝ := (locusU j - locusU i) ^ 2 + (locusV j - locusV i) ^ 2

theorem len_nat : ∀ i < 302,
    ((tU.getD (i + 1) 0 - tU.getD (i + 2) 0) ^ 2 + ((tV.getD (i + 1) 0 - tV.getD (i + 2) 0) + (tV.getD (i + 2) 0 - tV.getD (i + 1) 0)) ^ 2 ≤
      (tU.getD i 0 - tU.getD (i + 1) 0) ^ 2 + ((tV.getD i 0 - tV.getD (i + 1) 0) + (tV.getD (i + 1) 0 - tV.getD i 0)) ^ 2) ∧
    97 * ((tU.getD i 0 - tU.getD (i + 1) 0) ^ 2 + ((tV.getD i 0 - tV.getD (i + 1) 0) + (tV.getD (i + 1) 0 - tV.getD i 0)) ^ 2) ≤
      100 * ((tU.getD (i + 1) 0 - tU.getD (i + 2) 0) ^ 2 + ((tV.getD (i + 1) 0 - tV.getD (i + 2) 0) + (tV.getD (i + 2) 0 - tV.getD (i + 1) 0)) ^ 2) ∧
    (tU.getD i 0 - tU.getD (i + 1) 0) ^ 2 + ((tV.getD i 0 - tV.getD (i + 1) 0) + (tV.getD (i + 1) 0 - tV.getD i 0)) ^ 2 ≤ 300000 ^ 2 := by
  decide +kernel

theorem cast_diff (a b : ℕ) : (((a - b) + (b - a) : ℕ) : ℝ) ^ 2 = ((a : ℝ) - b) ^ 2 := by
  rcases le_total a b with h | h
  · rw [Nat.sub_eq_zero_of_le h, zero_add, Nat.cast_sub h]
    ring
  · rw [Nat.sub_eq_zero_of_le h, add_zero, Nat.cast_sub h]

theorem gap2_nat {i : ℕ} (hi : i < 303) : gap2 i (i + 1) * 10 ^ 16 =
    (((tU.getD i 0 - tU.getD (i + 1) 0) ^ 2 + ((tV.getD i 0 - tV.getD (i + 1) 0) + (tV.getD (i + 1) 0 - tV.getD i 0)) ^ 2 : ℕ) : ℝ) := by
  have h := (cone_nat i hi).1
  rw [Nat.cast_add, Nat.cast_pow, Nat.cast_pow, cast_diff, Nat.cast_sub h.le, gap2, locusU_nat (by omega : i < 304), locusU_nat (by omega : i + 1 < 304),
    locusV_nat (by omega : i < 304), locusV_nat (by omega : i + 1 < 304)]
  generalize ((tU.getD (i + 1) 0 : ℕ) : ℝ) = a
  generalize ((tU.getD i 0 : ℕ) : ℝ) = b
  generalize ((tV.getD (i + 1) 0 : ℕ) : ℝ) = c
  generalize ((tV.getD i 0 : ℕ) : ℝ) = d
  ring

theorem gap_facts {i : ℕ} (hi : i < 302) : gap2 (i + 1) (i + 2) ≤ gap2 i (i + 1) ∧ 0.97 * gap2 i (i + 1) ≤ gap2 (i + 1) (i + 2) ∧
    gap2 i (i + 1) ≤ 0.003 ^ 2 := by
  obtain ⟨h1, h2, h3⟩ := len_nat i hi
  have e1 := gap2_nat (i := i) (by omega)
  have e2 := gap2_nat (i := i + 1) (by omega)
  have g1 := (Nat.cast_le (α := ℝ)).2 h1
  have g2 := (Nat.cast_le (α := ℝ)).2 h2
  have g3 := (Nat.cast_le (α := ℝ)).2 h3
  rw [Nat.cast_mul, Nat.cast_mul, ← e1, ← e2] at g2
  rw [← e1, ← e2] at g1
  rw [← e1] at g3
  norm_num at g1 g2 g3 ⊢
  refine ⟨g1, by linarith, by linarith⟩

/-! ### The nearest row -/

theorem gap2_pos {i j : ℕ} (hij : i < j) (hj : j < 304) : 0 < gap2 i j := by
  have := (cone_far hij hj).inner (cone_far hij hj)
  rw [gap2]
  linarith

/-- A row farther away is at least as far as the neighbour. -/
theorem gap2_after {i j : ℕ} (hij : i < j) (hj : j < 304) : gap2 i (i + 1) ≤ gap2 i j := by
  rcases Nat.lt_or_ge (i + 1) j with h | h
  · have c1 := cone_step (i := i) (by omega)
    have c2 := cone_far h hj
    have := c1.inner c2
    have := c2.inner c2
    unfold gap2
    nlinarith
  · have : j = i + 1 := by omega
    subst this
    exact le_rfl

theorem gap2_before {i j : ℕ} (hij : j < i) (hi : i < 304) : gap2 (i - 1) i ≤ gap2 j i := by
  rcases Nat.lt_or_ge j (i - 1) with h | h
  · have c1 := cone_far (i := i - 1) (j := i) (by omega) hi
    have c2 := cone_far h (by omega)
    have := c1.inner c2
    have := c2.inner c2
    unfold gap2
    nlinarith
  · have : j = i - 1 := by omega
    subst this
    exact le_rfl

/-- For two vectors: Cauchy and Schwarz with a small second one. -/
theorem inner_small {a b c d L : ℝ} (h : c ^ 2 + d ^ 2 ≤ 0.13 ^ 2 * L) (hL : 0.9 * L ≤ a ^ 2 + b ^ 2) (hp : 0 < a ^ 2 + b ^ 2) :
    2 * |a * c + b * d| < a ^ 2 + b ^ 2 := by
  have h1 : (a * c + b * d) ^ 2 ≤ (a ^ 2 + b ^ 2) * (c ^ 2 + d ^ 2) := by nlinarith [sq_nonneg (a * d - b * c)]
  have h2 : (a * c + b * d) ^ 2 ≤ (0.2 * (a ^ 2 + b ^ 2)) ^ 2 := by
    refine h1.trans ?_
    have : c ^ 2 + d ^ 2 ≤ 0.2 ^ 2 * (a ^ 2 + b ^ 2) := by norm_num at *; linarith
    calc (a ^ 2 + b ^ 2) * (c ^ 2 + d ^ 2) ≤ (a ^ 2 + b ^ 2) * (0.2 ^ 2 * (a ^ 2 + b ^ 2)) := mul_le_mul_of_nonneg_left this hp.le
      _ = _ := by ring
  have h3 := abs_le_of_sq_le_sq h2 (by positivity)
  have h4 : |a * c + b * d| ≤ 0.2 * (a ^ 2 + b ^ 2) := abs_le.2 (abs_le.1 h3)
  norm_num at h4
  linarith

/-- A colour close to the segment between the rows `i` and `i + 1`: the nearest row is one of the two, and which one tells on which
side of the middle it is. -/
theorem nearest_two {i m : ℕ} (h1 : 1 ≤ i) (h2 : i ≤ 301) {t u v : ℝ} (ht0 : 0 ≤ t) (ht1 : t ≤ 1)
    (hd : (u - ((1 - t) * locusU i + t * locusU (i + 1))) ^ 2 + (v - ((1 - t) * locusV i + t * locusV (i + 1))) ^ 2 ≤ 0.13 ^ 2 * gap2 i (i + 1))
    (hm : NearestRow m u v) : (m = i ∧ t ≤ 0.63) ∨ (m = i + 1 ∧ 0.37 ≤ t) := by
  obtain ⟨c, hc⟩ : ∃ c, u - ((1 - t) * locusU i + t * locusU (i + 1)) = c := ⟨_, rfl⟩
  obtain ⟨d, hd'⟩ : ∃ d, v - ((1 - t) * locusV i + t * locusV (i + 1)) = d := ⟨_, rfl⟩
  rw [hc, hd'] at hd
  have hu : u = (1 - t) * locusU i + t * locusU (i + 1) + c := by linarith
  have hv : v = (1 - t) * locusV i + t * locusV (i + 1) + d := by linarith
  have step := cone_step (i := i) (by omega)
  have gp := gap2_pos (i := i) (j := i + 1) (by omega) (by omega)
  obtain ⟨hm1, hm2, hm3⟩ := hm
  have lo : ¬ m < i := by
    intro hlt
    have hcone := cone_far hlt (by omega : i < 304)
    have hin := hcone.inner step
    have hg : 0.9 * gap2 i (i + 1) ≤ gap2 m i := by
      have a := gap2_before hlt (by omega)
      have b := (gap_facts (i := i - 1) (by omega)).1
      rw [show i - 1 + 1 = i by omega, show i - 1 + 2 = i + 1 by omega] at b
      norm_num
      linarith
    have hs := inner_small (a := locusU i - locusU m) (b := locusV i - locusV m) hd hg (gap2_pos hlt (by omega))
    have hn := hm2 i (by omega)
    unfold locusD2 at hn
    rw [hu, hv] at hn
    have habs := neg_abs_le ((locusU i - locusU m) * c + (locusV i - locusV m) * d)
    have ht : 0 ≤ t * ((locusU i - locusU m) * (locusU (i + 1) - locusU i) + (locusV i - locusV m) * (locusV (i + 1) - locusV i)) :=
      mul_nonneg ht0 hin.le
    nlinarith
  have hi' : ¬ i + 1 < m := by
    intro hlt
    have hcone := cone_far hlt hm1
    have hin := step.inner hcone
    have hg : 0.9 * gap2 i (i + 1) ≤ gap2 (i + 1) m := by
      have a := gap2_after hlt hm1
      have b := (gap_facts (i := i) (by omega)).2.1
      rw [show i + 1 + 1 = i + 2 by omega] at a
      norm_num at b ⊢
      linarith
    have hs := inner_small (a := locusU m - locusU (i + 1)) (b := locusV m - locusV (i + 1)) hd hg (gap2_pos hlt hm1)
    have hn := hm2 (i + 1) (by omega)
    unfold locusD2 at hn
    rw [hu, hv] at hn
    have habs := le_abs_self ((locusU m - locusU (i + 1)) * c + (locusV m - locusV (i + 1)) * d)
    have ht : 0 ≤ (1 - t) * ((locusU (i + 1) - locusU i) * (locusU m - locusU (i + 1)) + (locusV (i + 1) - locusV i) * (locusV m - locusV (i + 1))) :=
      mul_nonneg (by linarith) hin.le
    nlinarith
  have hmm : m = i ∨ m = i + 1 := by omega
  -- the inner product with the error
  have hin : |(locusU (i + 1) - locusU i) * c + (locusV (i + 1) - locusV i) * d| ≤ 0.13 * gap2 i (i + 1) := by
    refine abs_le_of_sq_le_sq' ?_ (by positivity) |> fun h => abs_le.2 h
    have h1 : ((locusU (i + 1) - locusU i) * c + (locusV (i + 1) - locusV i) * d) ^ 2 ≤ gap2 i (i + 1) * (c ^ 2 + d ^ 2) := by
      unfold gap2
      nlinarith [sq_nonneg ((locusU (i + 1) - locusU i) * d - (locusV (i + 1) - locusV i) * c)]
    refine h1.trans ?_
    calc gap2 i (i + 1) * (c ^ 2 + d ^ 2) ≤ gap2 i (i + 1) * (0.13 ^ 2 * gap2 i (i + 1)) := mul_le_mul_of_nonneg_left hd gp.le
      _ = _ := by ring
  have hdiff : locusD2 i u v - locusD2 (i + 1) u v = (2 * t - 1) * gap2 i (i + 1) +
      2 * ((locusU (i + 1) - locusU i) * c + (locusV (i + 1) - locusV i) * d) := by
    unfold locusD2 gap2
    rw [hu, hv]
    ring
  obtain ⟨n1, n2⟩ := abs_le.1 hin
  rcases hmm with rfl | rfl
  · left
    refine ⟨rfl, ?_⟩
    have := hm2 (m + 1) (by omega)
    by_contra hlt
    have : 0.26 * gap2 m (m + 1) < (2 * t - 1) * gap2 m (m + 1) := mul_lt_mul_of_pos_right (by norm_num at hlt ⊢; linarith) gp
    norm_num at this n1
    linarith
  · right
    refine ⟨rfl, ?_⟩
    have := hm2 i (by omega)
    by_contra hlt
    have : (2 * t - 1) * gap2 i (i + 1) < (-0.26) * gap2 i (i + 1) := mul_lt_mul_of_pos_right (by norm_num at hlt ⊢; linarith) gp
    norm_num at this n2
    linarith

/-- The distance from the nearest row. -/
theorem nearest_close {i : ℕ} (h1 : 1 ≤ i) (h2 : i ≤ 301) {t u v : ℝ} (ht0 : 0 ≤ t) (ht1 : t ≤ 1)
    (hd : (u - ((1 - t) * locusU i + t * locusU (i + 1))) ^ 2 + (v - ((1 - t) * locusV i + t * locusV (i + 1))) ^ 2 ≤ 0.13 ^ 2 * gap2 i (i + 1)) :
    locusD2 i u v ≤ 0.005 ^ 2 ∧ locusD2 (i + 1) u v ≤ 0.005 ^ 2 := by
  have gp := gap2_pos (i := i) (j := i + 1) (by omega) (by omega)
  have g3 := (gap_facts (i := i) (by omega)).2.2
  obtain ⟨c, hc⟩ : ∃ c, u - ((1 - t) * locusU i + t * locusU (i + 1)) = c := ⟨_, rfl⟩
  obtain ⟨d, hd'⟩ : ∃ d, v - ((1 - t) * locusV i + t * locusV (i + 1)) = d := ⟨_, rfl⟩
  rw [hc, hd'] at hd
  have hu : u = (1 - t) * locusU i + t * locusU (i + 1) + c := by linarith
  have hv : v = (1 - t) * locusV i + t * locusV (i + 1) + d := by linarith
  have two : ∀ a b x y : ℝ, (a + x) ^ 2 + (b + y) ^ 2 ≤ 2 * (a ^ 2 + b ^ 2) + 2 * (x ^ 2 + y ^ 2) := fun a b x y => by
    nlinarith [sq_nonneg (a - x), sq_nonneg (b - y)]
  constructor
  · have e : locusD2 i u v = (t * (locusU (i + 1) - locusU i) + c) ^ 2 + (t * (locusV (i + 1) - locusV i) + d) ^ 2 := by
      rw [locusD2, hu, hv]; ring
    rw [e]
    refine (two _ _ _ _).trans ?_
    have : (t * (locusU (i + 1) - locusU i)) ^ 2 + (t * (locusV (i + 1) - locusV i)) ^ 2 = t ^ 2 * gap2 i (i + 1) := by unfold gap2; ring
    rw [this]
    have : t ^ 2 * gap2 i (i + 1) ≤ 1 * gap2 i (i + 1) := mul_le_mul_of_nonneg_right (by nlinarith) gp.le
    norm_num at *
    linarith
  · have e : locusD2 (i + 1) u v = ((1 - t) * (locusU (i + 1) - locusU i) + -c) ^ 2 + ((1 - t) * (locusV (i + 1) - locusV i) + -d) ^ 2 := by
      rw [locusD2, hu, hv]; ring
    rw [e]
    refine (two _ _ _ _).trans ?_
    have : ((1 - t) * (locusU (i + 1) - locusU i)) ^ 2 + ((1 - t) * (locusV (i + 1) - locusV i)) ^ 2 = (1 - t) ^ 2 * gap2 i (i + 1) := by unfold gap2; ring
    rw [this, neg_sq, neg_sq]
    have : (1 - t) ^ 2 * gap2 i (i + 1) ≤ 1 * gap2 i (i + 1) := mul_le_mul_of_nonneg_right (by nlinarith) gp.le
    norm_num at *
    linarith

end Verif.LT
