import Verif.Props.Sort2
import Verif.Props.Stat6

/-!
# Statistics and disturbed data: means, percentiles, median and quartiles move no more than the data; the median ignores a minority (C172)
-/

namespace Verif

open Out

variable {n : ℕ}

/-- In a sorted list, the `k`-th element is at most `c` when more than `k` elements are. -/
theorem sorted_le_of_count (l : List ℝ) (hs : l.Pairwise (· ≤ ·)) (k : ℕ) (hk : k < l.length) (c : ℝ) (h : k < l.countP (fun b => decide (b ≤ c))) : l.getD k 0 ≤ c := by
  by_contra hc
  push Not at hc
  have h1 : l.countP (fun b => decide (b ≤ c)) = (l.take k).countP (fun b => decide (b ≤ c)) + (l.drop k).countP (fun b => decide (b ≤ c)) := by
    rw [← List.countP_append, List.take_append_drop]
  have h2 : (l.drop k).countP (fun b => decide (b ≤ c)) = 0 := by
    rw [List.countP_eq_zero]
    intro b hb
    obtain ⟨j, hj, rfl⟩ := List.mem_iff_getElem.1 hb
    rw [List.getElem_drop, decide_eq_true_eq, not_le]
    rw [List.length_drop] at hj
    have := getD_mono l hs k (k + j) (by omega) (by omega)
    rw [List.getD_eq_getElem _ _ (by omega : k + j < l.length)] at this
    linarith
  have h3 : (l.take k).countP (fun b => decide (b ≤ c)) ≤ (l.take k).length := List.countP_le_length
  rw [List.length_take] at h3
  omega

theorem count_of_sorted (l : List ℝ) (hs : l.Pairwise (· ≤ ·)) (k : ℕ) (hk : k < l.length) : k < l.countP (fun b => decide (b ≤ l.getD k 0)) := by
  have h1 : l.countP (fun b => decide (b ≤ l.getD k 0)) = (l.take (k + 1)).countP (fun b => decide (b ≤ l.getD k 0)) + (l.drop (k + 1)).countP (fun b => decide (b ≤ l.getD k 0)) := by
    rw [← List.countP_append, List.take_append_drop]
  have h2 : (l.take (k + 1)).countP (fun b => decide (b ≤ l.getD k 0)) = (l.take (k + 1)).length := by
    rw [List.countP_eq_length]
    intro b hb
    obtain ⟨j, hj, rfl⟩ := List.mem_iff_getElem.1 hb
    rw [List.length_take] at hj
    rw [List.getElem_take, decide_eq_true_eq]
    have := getD_mono l hs j k (by omega) hk
    rwa [List.getD_eq_getElem _ _ (by omega : j < l.length)] at this
  rw [h1, h2, List.length_take]
  omega

/-- Order statistics move no more than the data. -/
theorem sorted_le_sorted (x y : Fin n → ℝ) (e : ℝ) (h : ∀ i, x i ≤ y i + e) (k : ℕ) (hk : k < n) : (sortedOf x).getD k 0 ≤ (sortedOf y).getD k 0 + e := by
  have hx := sortedOf_length x
  have hy := sortedOf_length y
  refine sorted_le_of_count _ (sortedOf_pairwise x) k (by omega) _ (lt_of_lt_of_le (count_of_sorted _ (sortedOf_pairwise y) k (by omega)) ?_)
  rw [card_sorted x (fun b => b ≤ (sortedOf y).getD k 0 + e), card_sorted y (fun b => b ≤ (sortedOf y).getD k 0)]
  refine Finset.card_le_card fun i hi => ?_
  rw [Finset.mem_filter] at hi ⊢
  exact ⟨hi.1, (h i).trans (by linarith [hi.2])⟩

theorem percVal_moves (x y : Fin n → ℝ) (p e : ℝ) (hn : 1 ≤ n) (hp0 : 0 < p) (hp1 : p < 100) (h : ∀ i, x i ≤ y i + e) :
    percVal (sortedOf x) p ≤ percVal (sortedOf y) p + e := by
  have hlt := floor_lt_of p hn hp0 hp1
  unfold percVal
  rw [sortedOf_length, sortedOf_length]
  have h1 := sorted_le_sorted x y e h _ hlt
  split
  · have h2 := sorted_le_sorted x y e h (⌊p * n / 100⌋₊ - 1) (by omega)
    linarith
  · exact h1

theorem percVal_lip (x y : Fin n → ℝ) (p e : ℝ) (hn : 1 ≤ n) (hp0 : 0 < p) (hp1 : p < 100) (h : ∀ i, |x i - y i| ≤ e) :
    |percVal (sortedOf x) p - percVal (sortedOf y) p| ≤ e := by
  have h1 := percVal_moves x y p e hn hp0 hp1 fun i => by linarith [(abs_le.1 (h i)).2]
  have h2 := percVal_moves y x p e hn hp0 hp1 fun i => by linarith [(abs_le.1 (h i)).1]
  rw [abs_le]
  constructor <;> linarith

/-- C172. `zsl_sta_mean`: if no reading changes by more than `e`, neither does the mean. -/
theorem sta_mean_moves (x y : Fin n → ℝ) (t u : List XR) (m : XR) (hn : 1 ≤ n) (e : ℝ) (h : ∀ i, |x i - y i| ≤ e) :
    ∃ a b : ℝ, staMean (vec x t) m = ok (0, XR.fin a) ∧ staMean (vec y u) m = ok (0, XR.fin b) ∧ |a - b| ≤ e := by
  refine ⟨_, _, staMean_vec x t m hn, staMean_vec y u m hn, ?_⟩
  have hp : (0 : ℝ) < n := by exact_mod_cast hn
  rw [meanOf, meanOf, ← sub_div, ← Finset.sum_sub_distrib, abs_div, abs_of_pos hp, div_le_iff₀ hp]
  refine (Finset.abs_sum_le_sum_abs _ _).trans ((Finset.sum_le_sum fun i _ => h i).trans (le_of_eq ?_))
  rw [Finset.sum_const, Finset.card_univ, Fintype.card_fin, nsmul_eq_mul, mul_comm]

/-- C172. `zsl_sta_weighted_mean`, with accepted weights: if no reading changes by more than `e`, neither does the weighted mean. -/
theorem sta_weighted_mean_moves (x y w : Fin n → ℝ) (t u s : List XR) (m : XR) (e : ℝ) (h : ∀ i, |x i - y i| ≤ e) (hw : ∀ i, 0 ≤ w i) (hs : 1e-6 ≤ ∑ i, w i) :
    ∃ a b : ℝ, staWeightedMean (vec x t) (vec w s) m = ok (0, XR.fin a) ∧ staWeightedMean (vec y u) (vec w s) m = ok (0, XR.fin b) ∧ |a - b| ≤ e := by
  have hp : 0 < ∑ i, w i := lt_of_lt_of_le (by norm_num) hs
  have hc : ¬((∃ i, w i < 0) ∨ |∑ i, w i| < 1e-6) := by
    rintro (⟨i, hi⟩ | hi)
    · exact absurd (hw i) (not_le.2 hi)
    · rw [abs_of_pos hp] at hi
      linarith
  refine ⟨_, _, by rw [sta_weighted_mean_value, if_neg hc], by rw [sta_weighted_mean_value, if_neg hc], ?_⟩
  rw [← sub_div, ← Finset.sum_sub_distrib, abs_div, abs_of_pos hp, div_le_iff₀ hp, Finset.mul_sum]
  refine (Finset.abs_sum_le_sum_abs _ _).trans (Finset.sum_le_sum fun i _ => ?_)
  rw [← mul_sub, abs_mul, abs_of_nonneg (hw i), mul_comm e]
  exact mul_le_mul_of_nonneg_left (h i) (hw i)

/-- C172. `zsl_sta_percentile`, 0 < p < 100: if no reading changes by more than `e`, neither does the percentile; and readings which are nowhere smaller have no smaller percentile. -/
theorem sta_percentile_moves (fuel : ℕ) (extra : List XR) (junk : ℕ → XR) (x y : Fin n → ℝ) (t u : List XR) (p : ℝ) (val : XR) (hn : 1 ≤ n) (hp0 : 0 < p) (hp1 : p < 100)
    (hx : SortOK fuel extra x) (hy : SortOK fuel extra y) (hn2 : n < 2147483648) :
    ∃ a b : ℝ, staPercentile fuel extra junk (vec x t) (XR.fin p) val = ok (0, XR.fin a) ∧ staPercentile fuel extra junk (vec y u) (XR.fin p) val = ok (0, XR.fin b) ∧
      (∀ e, (∀ i, |x i - y i| ≤ e) → |a - b| ≤ e) ∧ ((∀ i, x i ≤ y i) → a ≤ b) := by
  refine ⟨_, _, sta_percentile_value fuel extra junk x t p val hn hp0 hp1 hx hn2, sta_percentile_value fuel extra junk y u p val hn hp0 hp1 hy hn2,
    fun e h => percVal_lip x y p e hn hp0 hp1 h, fun h => ?_⟩
  have := percVal_moves x y p 0 hn hp0 hp1 fun i => by linarith [h i]
  linarith

/-- C172. `zsl_sta_median`, `zsl_sta_quart` and `zsl_sta_quart_range`: if no reading changes by more than `e`, neither do the median and the quartiles, and the interquartile range changes by
at most `2 e`. -/
theorem sta_quart_moves (fuel : ℕ) (extra : List XR) (junk : ℕ → XR) (x y : Fin n → ℝ) (t u : List XR) (q1 q2 q3 m : XR) (hn : 1 ≤ n)
    (hx : SortOK fuel extra x) (hy : SortOK fuel extra y) (hn2 : n < 2147483648) (e : ℝ) (h : ∀ i, |x i - y i| ≤ e) :
    ∃ a b c a' b' c' : ℝ, staQuart fuel extra junk (vec x t) q1 q2 q3 = ok (0, XR.fin a, XR.fin b, XR.fin c) ∧ staQuart fuel extra junk (vec y u) q1 q2 q3 = ok (0, XR.fin a', XR.fin b', XR.fin c') ∧
      staMedian fuel extra junk (vec x t) m = ok (0, XR.fin b) ∧ staMedian fuel extra junk (vec y u) m = ok (0, XR.fin b') ∧
      staQuartRange fuel extra junk (vec x t) = ok (0, XR.fin (c - a)) ∧ staQuartRange fuel extra junk (vec y u) = ok (0, XR.fin (c' - a')) ∧
      |a - a'| ≤ e ∧ |b - b'| ≤ e ∧ |c - c'| ≤ e ∧ |(c - a) - (c' - a')| ≤ 2 * e := by
  have e1 : (lit 25 : XR) = XR.fin 25 := by rw [XR.lit_eq]; norm_num
  have e3 : (lit 75 : XR) = XR.fin 75 := by rw [XR.lit_eq]; norm_num
  have run : ∀ (x : Fin n → ℝ) (t : List XR), SortOK fuel extra x → staQuart fuel extra junk (vec x t) q1 q2 q3 =
      ok (0, XR.fin (percVal (sortedOf x) 25), XR.fin (percVal (sortedOf x) 50), XR.fin (percVal (sortedOf x) 75)) ∧
      staMedian fuel extra junk (vec x t) m = ok (0, XR.fin (percVal (sortedOf x) 50)) ∧
      staQuartRange fuel extra junk (vec x t) = ok (0, XR.fin (percVal (sortedOf x) 75 - percVal (sortedOf x) 25)) := by
    intro x t h
    obtain ⟨a, b, c, r1, -, -, -, -, -, r2⟩ := sta_quart_partial fuel extra junk x t q1 q2 q3 hn h hn2
    have r3 : staQuart fuel extra junk (vec x t) q1 q2 q3 =
        ok (0, XR.fin (percVal (sortedOf x) 25), XR.fin (percVal (sortedOf x) 50), XR.fin (percVal (sortedOf x) 75)) := by
      rw [staQuart, e1, lit_fifty, e3, sta_percentile_value fuel extra junk x t 25 _ hn (by norm_num) (by norm_num) h hn2, ok_bind]
      dsimp only
      rw [sta_percentile_value fuel extra junk x t 50 _ hn (by norm_num) (by norm_num) h hn2, ok_bind]
      dsimp only
      rw [sta_percentile_value fuel extra junk x t 75 _ hn (by norm_num) (by norm_num) h hn2]
      rfl
    refine ⟨r3, ?_, ?_⟩
    · rw [staMedian, lit_fifty, sta_percentile_value fuel extra junk x t 50 m hn (by norm_num) (by norm_num) h hn2]
      rfl
    · rw [r1] at r3
      simp only [Out.ok.injEq, Prod.mk.injEq, true_and, XR.fin.injEq] at r3
      rw [r2, r3.1, r3.2.2]
  obtain ⟨a1, a2, a3⟩ := run x t hx
  obtain ⟨b1, b2, b3⟩ := run y u hy
  have l1 := percVal_lip x y 25 e hn (by norm_num) (by norm_num) h
  have l2 := percVal_lip x y 50 e hn (by norm_num) (by norm_num) h
  have l3 := percVal_lip x y 75 e hn (by norm_num) (by norm_num) h
  refine ⟨_, _, _, _, _, _, a1, b1, a2, b2, a3, b3, l1, l2, l3, ?_⟩
  rw [abs_le] at l1 l3 ⊢
  constructor <;> linarith [l1.1, l1.2, l3.1, l3.2]

/-- C172. The median ignores a minority: as long as more than half of the readings (those in `good`) lie between `lo` and `hi`, so does the median, whatever the other readings are. -/
theorem sta_median_robust (fuel : ℕ) (extra : List XR) (junk : ℕ → XR) (x : Fin n → ℝ) (t : List XR) (m : XR) (hx : SortOK fuel extra x) (hn2 : n < 2147483648)
    (good : Finset (Fin n)) (hg : n < 2 * good.card) (lo hi : ℝ) (hr : ∀ i ∈ good, lo ≤ x i ∧ x i ≤ hi) :
    ∃ a : ℝ, staMedian fuel extra junk (vec x t) m = ok (0, XR.fin a) ∧ lo ≤ a ∧ a ≤ hi := by
  have hn : 1 ≤ n := by
    have := Finset.card_le_univ good
    rw [Fintype.card_fin] at this
    omega
  obtain ⟨a, h1, -, h2, h3⟩ := sta_median_partial fuel extra junk x t m hn hx hn2
  have meet : ∀ s : Finset (Fin n), (50 : ℝ) / 100 * n ≤ s.card → ∃ i ∈ good, i ∈ s := by
    intro s hs
    by_contra hc
    push Not at hc
    have hd : Disjoint good s := Finset.disjoint_left.2 hc
    have := Finset.card_le_univ (good ∪ s)
    rw [Finset.card_union_of_disjoint hd, Fintype.card_fin] at this
    have h4 : (n : ℝ) ≤ 2 * s.card := by linarith
    have h5 : n ≤ 2 * s.card := by exact_mod_cast h4
    omega
  obtain ⟨i, hi1, hi2⟩ := meet _ h2
  obtain ⟨j, hj1, hj2⟩ := meet _ (by norm_num at h3 ⊢; exact h3)
  exact ⟨a, h1, (hr i hi1).1.trans (Finset.mem_filter.1 hi2).2, (Finset.mem_filter.1 hj2).2.trans (hr j hj1).2⟩

/-- C172. The mean does not: one reading moves it anywhere. -/
theorem sta_mean_not_robust (x : Fin n → ℝ) (t : List XR) (m : XR) (i : Fin n) (target : ℝ) :
    ∃ r : ℝ, staMean (vec (Function.update x i r) t) m = ok (0, XR.fin target) := by
  have hn : 1 ≤ n := by have := i.isLt; omega
  have hp : (n : ℝ) ≠ 0 := by positivity
  refine ⟨target * n - ∑ j ∈ Finset.univ.erase i, x j, ?_⟩
  rw [staMean_vec _ _ _ hn, meanOf, ← Finset.add_sum_erase _ _ (Finset.mem_univ i), Function.update_self,
    Finset.sum_congr rfl fun j hj => Function.update_of_ne (Finset.ne_of_mem_erase hj) _ _, sub_add_cancel, mul_div_assoc, div_self hp, mul_one]

/-- C172. Three readings of which one is far off. -/
example (junk : ℕ → XR) (m : XR) : ∃ a : ℝ, staMedian 6 [] junk (vec ![(3 : ℝ), 1, 1] []) m = ok (0, XR.fin a) ∧ 1 ≤ a ∧ a ≤ 1 :=
  sta_median_robust 6 [] junk _ [] m sortOK311 (by norm_num) {1, 2} (by decide) 1 1 (by intro i hi; fin_cases hi <;> simp)

end Verif
