import Mathlib.Algebra.Order.BigOperators.Group.Finset
import Mathlib.Algebra.BigOperators.Field
import Mathlib.Algebra.Order.Archimedean.Basic
import Mathlib.Topology.Algebra.Order.LiminfLimsup
import Mathlib.Topology.Order.MonotoneConvergence
import Mathlib.Topology.Instances.Real.Lemmas
import Mathlib.Order.WellFounded

/-!
# Diagonal scaling by powers of two cannot go on for ever

The state is a vector `k` of exponents; the matrix it stands for has the entries `w i j * 2 ^ (k j - k i)` (absolute values). A step
adds `m` to one exponent, provided that lowers the sum of the row and the column of that index by more than five percent. There is no
infinite sequence of steps.
-/

namespace Verif.Bal

open Finset Filter

variable (n : ℕ) (w : ℕ → ℕ → ℝ)

noncomputable def E (k : ℕ → ℤ) (i j : ℕ) : ℝ := w i j * (2 : ℝ) ^ (k j - k i)

noncomputable def row (k : ℕ → ℤ) (i : ℕ) : ℝ := ∑ j ∈ range n, E w k i j

noncomputable def col (k : ℕ → ℤ) (i : ℕ) : ℝ := ∑ j ∈ range n, E w k j i

/-- One scaling. -/
def Step (i : ℕ) (k' k : ℕ → ℤ) : Prop :=
  i < n ∧ ∃ m : ℤ, k' = Function.update k i (k i + m) ∧ 0 < row n w k i ∧ 0 < col n w k i ∧
    col n w k i * (2 : ℝ) ^ m + row n w k i / (2 : ℝ) ^ m < 19 / 20 * (col n w k i + row n w k i)

/-- The sum of the entries off the diagonal. -/
noncomputable def S (k : ℕ → ℤ) : ℝ := ∑ i ∈ range n, ∑ j ∈ range n, if i = j then 0 else E w k i j

variable {n w}

theorem E_nonneg (hw : ∀ i j, 0 ≤ w i j) (k : ℕ → ℤ) (i j : ℕ) : 0 ≤ E w k i j :=
  mul_nonneg (hw i j) (zpow_nonneg (by norm_num) _)

theorem E_self (k : ℕ → ℤ) (i : ℕ) : E w k i i = w i i := by
  unfold E
  rw [sub_self, zpow_zero, mul_one]

theorem S_nonneg (hw : ∀ i j, 0 ≤ w i j) (k : ℕ → ℤ) : 0 ≤ S n w k :=
  sum_nonneg fun i _ => sum_nonneg fun j _ => by
    split_ifs
    · exact le_rfl
    · exact E_nonneg hw k i j

theorem E_update_ne (k : ℕ → ℤ) (l i j : ℕ) (z : ℤ) (hi : i ≠ l) (hj : j ≠ l) : E w (Function.update k l z) i j = E w k i j := by
  unfold E
  rw [Function.update_of_ne hi, Function.update_of_ne hj]

theorem E_update_row (k : ℕ → ℤ) (l j : ℕ) (m : ℤ) (hj : j ≠ l) :
    E w (Function.update k l (k l + m)) l j = E w k l j / (2 : ℝ) ^ m := by
  unfold E
  rw [Function.update_self, Function.update_of_ne hj, mul_div_assoc, ← zpow_sub₀ (by norm_num)]
  congr 2
  ring

theorem E_update_col (k : ℕ → ℤ) (l j : ℕ) (m : ℤ) (hj : j ≠ l) :
    E w (Function.update k l (k l + m)) j l = E w k j l * (2 : ℝ) ^ m := by
  unfold E
  rw [Function.update_self, Function.update_of_ne hj, mul_assoc, ← zpow_add₀ (by norm_num)]
  congr 2
  ring

/-- The part of `S` that does not touch index `l`, and the two parts that do. -/
theorem S_split (k : ℕ → ℤ) (l : ℕ) (hl : l < n) :
    S n w k = (∑ j ∈ (range n).erase l, E w k l j) + (∑ i ∈ (range n).erase l, E w k i l) +
      ∑ i ∈ (range n).erase l, ∑ j ∈ (range n).erase l, if i = j then 0 else E w k i j := by
  have hm : l ∈ range n := mem_range.2 hl
  unfold S
  rw [← add_sum_erase _ _ hm]
  have h1 : (∑ j ∈ range n, if l = j then 0 else E w k l j) = ∑ j ∈ (range n).erase l, E w k l j := by
    rw [← add_sum_erase _ _ hm, if_pos rfl, zero_add]
    exact sum_congr rfl fun j hj => if_neg (Ne.symm (ne_of_mem_erase hj))
  have h2 : (∑ i ∈ (range n).erase l, ∑ j ∈ range n, if i = j then 0 else E w k i j) =
      (∑ i ∈ (range n).erase l, E w k i l) +
        ∑ i ∈ (range n).erase l, ∑ j ∈ (range n).erase l, if i = j then 0 else E w k i j := by
    rw [← sum_add_distrib]
    refine sum_congr rfl fun i hi => ?_
    rw [← add_sum_erase _ _ hm, if_neg (ne_of_mem_erase hi)]
  rw [h1, h2, add_assoc]

theorem row_split (k : ℕ → ℤ) (l : ℕ) (hl : l < n) : row n w k l = w l l + ∑ j ∈ (range n).erase l, E w k l j := by
  unfold row
  rw [← add_sum_erase _ _ (mem_range.2 hl), E_self]

theorem col_split (k : ℕ → ℤ) (l : ℕ) (hl : l < n) : col n w k l = w l l + ∑ j ∈ (range n).erase l, E w k j l := by
  unfold col
  rw [← add_sum_erase _ _ (mem_range.2 hl), E_self]

theorem two_le (f : ℝ) (hf : 0 < f) : 2 ≤ f + 1 / f := by
  have : f + 1 / f - 2 = (f - 1) ^ 2 / f := by
    field_simp
    ring
  have h2 : 0 ≤ (f - 1) ^ 2 / f := by positivity
  linarith

/-- A step lowers `S` by more than a twentieth of the sums of row and column. -/
theorem step_drop (hw : ∀ i j, 0 ≤ w i j) (l : ℕ) (k k' : ℕ → ℤ) (h : Step n w l k' k) :
    row n w k l + col n w k l < 20 * (S n w k - S n w k') := by
  obtain ⟨hl, m, rfl, _, _, hlt⟩ := h
  set f : ℝ := (2 : ℝ) ^ m with hf
  have hf0 : 0 < f := zpow_pos (by norm_num) _
  rw [S_split k l hl, S_split _ l hl, row_split k l hl, col_split k l hl]
  rw [row_split k l hl, col_split k l hl] at hlt
  have e1 : (∑ j ∈ (range n).erase l, E w (Function.update k l (k l + m)) l j) = (∑ j ∈ (range n).erase l, E w k l j) / f := by
    rw [sum_div]
    exact sum_congr rfl fun j hj => E_update_row k l j m (ne_of_mem_erase hj)
  have e2 : (∑ j ∈ (range n).erase l, E w (Function.update k l (k l + m)) j l) = (∑ j ∈ (range n).erase l, E w k j l) * f := by
    rw [sum_mul]
    exact sum_congr rfl fun j hj => E_update_col k l j m (ne_of_mem_erase hj)
  have e3 : (∑ i ∈ (range n).erase l, ∑ j ∈ (range n).erase l, if i = j then 0 else E w (Function.update k l (k l + m)) i j) =
      ∑ i ∈ (range n).erase l, ∑ j ∈ (range n).erase l, if i = j then 0 else E w k i j := by
    refine sum_congr rfl fun i hi => sum_congr rfl fun j hj => ?_
    rw [E_update_ne k l i j _ (ne_of_mem_erase hi) (ne_of_mem_erase hj)]
  rw [e1, e2, e3]
  generalize (∑ j ∈ (range n).erase l, E w k l j) = r at *
  generalize (∑ j ∈ (range n).erase l, E w k j l) = c at *
  have h2 := mul_le_mul_of_nonneg_left (two_le f hf0) (hw l l)
  have h3 : (w l l + r) / f = w l l * (1 / f) + r / f := by ring
  rw [h3] at hlt
  nlinarith

/-- After a step every entry in the row or column of its index is small if the step lowered `S` by little. -/
theorem step_small (hw : ∀ i j, 0 ≤ w i j) (l : ℕ) (k k' : ℕ → ℤ) (h : Step n w l k' k) (j : ℕ) (hj : j < n) :
    E w k' l j < 20 * (S n w k - S n w k') ∧ E w k' j l < 20 * (S n w k - S n w k') := by
  have hd := step_drop hw l k k' h
  obtain ⟨hl, m, rfl, hr, hc, hlt⟩ := h
  have hf0 : (0 : ℝ) < (2 : ℝ) ^ m := zpow_pos (by norm_num) _
  have hrow : ∀ j, j < n → E w k l j ≤ row n w k l := fun j hj =>
    single_le_sum (f := fun j => E w k l j) (fun j _ => E_nonneg hw k l j) (mem_range.2 hj)
  have hcol : ∀ j, j < n → E w k j l ≤ col n w k l := fun j hj =>
    single_le_sum (f := fun j => E w k j l) (fun j _ => E_nonneg hw k j l) (mem_range.2 hj)
  by_cases hjl : j = l
  · subst hjl
    have := hrow j hj
    rw [E_self] at this ⊢
    constructor <;> linarith
  · rw [E_update_row k l j m hjl, E_update_col k l j m hjl]
    have h1 := div_le_div_of_nonneg_right (hrow j hj) hf0.le
    have h2 := mul_le_mul_of_nonneg_right (hcol j hj) hf0.le
    have h3 : 0 ≤ col n w k l * (2 : ℝ) ^ m := by positivity
    have h4 : 0 ≤ row n w k l / (2 : ℝ) ^ m := by positivity
    constructor <;> linarith

/-- There is no infinite sequence of steps. -/
theorem no_infinite (hw : ∀ i j, 0 ≤ w i j) (k : ℕ → ℕ → ℤ) (l : ℕ → ℕ) (h : ∀ t, Step n w (l t) (k (t + 1)) (k t)) : False := by
  classical
  have hdrop : ∀ t, 0 < S n w (k t) - S n w (k (t + 1)) := by
    intro t
    have h1 := step_drop hw _ _ _ (h t)
    obtain ⟨_, m, _, hr, hc, _⟩ := h t
    linarith
  -- the drops tend to zero
  have hlim : Tendsto (fun t => S n w (k t) - S n w (k (t + 1))) atTop (nhds 0) := by
    have hanti : Antitone fun t => S n w (k t) := antitone_nat_of_succ_le fun t => by linarith [hdrop t]
    have hbdd : BddBelow (Set.range fun t => S n w (k t)) := ⟨0, by
      rintro _ ⟨t, rfl⟩
      exact S_nonneg hw _⟩
    have hc := tendsto_atTop_ciInf hanti hbdd
    have := hc.sub (hc.comp (tendsto_add_atTop_nat 1))
    simpa using this
  -- the indices scaled infinitely often
  set I : Finset ℕ := (range n).filter fun i => ∀ T, ∃ t, T ≤ t ∧ l t = i with hI
  obtain ⟨T2, hT2⟩ : ∃ T2, ∀ t, T2 ≤ t → l t ∈ I := by
    have hfin : ∀ i, ∃ T, i ∉ I → ∀ t, T ≤ t → l t ≠ i := by
      intro i
      by_cases hi : i ∈ I
      · exact ⟨0, fun hh => absurd hi hh⟩
      · by_cases hin : i < n
        · have : ¬ ∀ T, ∃ t, T ≤ t ∧ l t = i := fun hh => hi (mem_filter.2 ⟨mem_range.2 hin, hh⟩)
          push Not at this
          obtain ⟨T, hT⟩ := this
          exact ⟨T, fun _ => hT⟩
        · refine ⟨0, fun _ t _ hh => hin ?_⟩
          rw [← hh]
          exact (h t).1
    choose T hT using hfin
    refine ⟨(range n).sup T, fun t ht => ?_⟩
    by_contra hni
    exact hT (l t) hni t (le_trans (le_sup (f := T) (mem_range.2 (h t).1)) ht) rfl
  have hIne : I.Nonempty := ⟨l T2, hT2 T2 le_rfl⟩
  -- the other exponents stay
  have hfix : ∀ t, T2 ≤ t → ∀ j, j ∉ I → k t j = k T2 j := by
    intro t ht
    induction t, ht using Nat.le_induction with
    | base => exact fun _ _ => rfl
    | succ t ht ih =>
      intro j hj
      obtain ⟨_, m, hk, _⟩ := h t
      rw [hk, Function.update_of_ne, ih j hj]
      rintro rfl
      exact hj (hT2 t ht)
  obtain ⟨B, hB0, hB⟩ : ∃ B : ℕ, True ∧ ∀ j, j < n → -(B : ℤ) ≤ k T2 j ∧ k T2 j ≤ B := by
    refine ⟨(range n).sup fun j => (k T2 j).natAbs, trivial, fun j hj => ?_⟩
    have := le_sup (f := fun j => (k T2 j).natAbs) (mem_range.2 hj)
    omega
  obtain ⟨ω, hω0, hω⟩ : ∃ ω : ℝ, 0 < ω ∧ ∀ i, i < n → ∀ j, j < n → 0 < w i j → ω ≤ w i j := by
    set P : Finset (ℕ × ℕ) := ((range n) ×ˢ (range n)).filter fun p => 0 < w p.1 p.2 with hP
    by_cases hPe : P.Nonempty
    · obtain ⟨p, hp, hmin⟩ := P.exists_min_image (fun p => w p.1 p.2) hPe
      refine ⟨w p.1 p.2, (mem_filter.1 hp).2, fun i hi j hj hij => ?_⟩
      exact hmin (i, j) (mem_filter.2 ⟨mem_product.2 ⟨mem_range.2 hi, mem_range.2 hj⟩, hij⟩)
    · refine ⟨1, one_pos, fun i hi j hj hij => ?_⟩
      exact absurd ⟨(i, j), mem_filter.2 ⟨mem_product.2 ⟨mem_range.2 hi, mem_range.2 hj⟩, hij⟩⟩ hPe
  set ε : ℝ := ω * (2 : ℝ) ^ (-(B : ℤ)) with hε
  have hε0 : 0 < ε := mul_pos hω0 (zpow_pos (by norm_num) _)
  obtain ⟨T1, hT1⟩ : ∃ T1, ∀ t, T1 ≤ t → 20 * (S n w (k t) - S n w (k (t + 1))) < ε := by
    have := (tendsto_order.1 hlim).2 (ε / 20) (by positivity)
    obtain ⟨T1, hT1⟩ := eventually_atTop.1 this
    exact ⟨T1, fun t ht => by linarith [hT1 t ht]⟩
  -- from some time on every entry touching `I` is small
  have hsmall : ∃ T, ∀ t, T ≤ t → ∀ i, i ∈ I → ∀ j, j < n → E w (k t) i j < ε ∧ E w (k t) j i < ε := by
    have hone : ∀ i, ∃ T, i ∈ I → ∀ t, T ≤ t → ∀ j, j < n → E w (k t) i j < ε ∧ E w (k t) j i < ε := by
      intro i
      by_cases hi : i ∈ I
      swap
      · exact ⟨0, fun hh => absurd hh hi⟩
      obtain ⟨s, hs, hls⟩ := (mem_filter.1 hi).2 T1
      refine ⟨s + 1, fun _ t ht => ?_⟩
      induction t, ht using Nat.le_induction with
      | base =>
        intro j hj
        have h1 := step_small hw _ _ _ (h s) j hj
        have h2 := hT1 s hs
        rw [hls] at h1
        exact ⟨by linarith, by linarith⟩
      | succ t ht ih =>
        intro j hj
        have h2 := hT1 t (by omega)
        by_cases hil : i = l t
        · have h1 := step_small hw _ _ _ (h t) j hj
          rw [← hil] at h1
          exact ⟨by linarith, by linarith⟩
        · by_cases hjl : j = l t
          · have h1 := step_small hw _ _ _ (h t) i (mem_range.1 (mem_filter.1 hi).1)
            rw [← hjl] at h1
            exact ⟨by linarith, by linarith⟩
          · obtain ⟨_, m, hk, _⟩ := h t
            rw [hk, E_update_ne _ _ _ _ _ hil hjl, E_update_ne _ _ _ _ _ hjl hil]
            exact ih j hj
    choose T hT using hone
    refine ⟨I.sup T, fun t ht i hi j hj => hT i hi t (le_trans (le_sup (f := T) hi) ht) j hj⟩
  obtain ⟨T, hT⟩ := hsmall
  set t := max T T2 with ht
  have hexp : ∀ i j, i < n → j < n → 0 < w i j → E w (k t) i j < ε → k t j - k t i < -(B : ℤ) := by
    intro i j hi hj hij hE
    have h1 : ω * (2 : ℝ) ^ (k t j - k t i) < ω * (2 : ℝ) ^ (-(B : ℤ)) :=
      lt_of_le_of_lt (mul_le_mul_of_nonneg_right (hω i hi j hj hij) (zpow_nonneg (by norm_num) _)) hE
    exact (zpow_lt_zpow_iff_right₀ (by norm_num : (1 : ℝ) < 2)).1 (lt_of_mul_lt_mul_left h1 hω0.le)
  have hpos : ∀ i, i ∈ I → (∃ j, j < n ∧ 0 < w i j) ∧ ∃ j, j < n ∧ 0 < w j i := by
    intro i hi
    obtain ⟨s, _, hls⟩ := (mem_filter.1 hi).2 0
    obtain ⟨_, m, _, hr, hc, _⟩ := h s
    rw [hls] at hr hc
    constructor
    · obtain ⟨j, hj, hj2⟩ := exists_lt_of_sum_lt (s := range n) (f := fun _ => (0 : ℝ)) (g := fun j => E w (k s) i j)
        (by rw [sum_const_zero]; exact hr)
      exact ⟨j, mem_range.1 hj, pos_of_mul_pos_left hj2 (zpow_nonneg (by norm_num) _)⟩
    · obtain ⟨j, hj, hj2⟩ := exists_lt_of_sum_lt (s := range n) (f := fun _ => (0 : ℝ)) (g := fun j => E w (k s) j i)
        (by rw [sum_const_zero]; exact hc)
      exact ⟨j, mem_range.1 hj, pos_of_mul_pos_left hj2 (zpow_nonneg (by norm_num) _)⟩
  obtain ⟨a, ha, hamax⟩ := I.exists_max_image (k t) hIne
  obtain ⟨b, hb, hbmin⟩ := I.exists_min_image (k t) hIne
  have han := mem_range.1 (mem_filter.1 ha).1
  have hbn := mem_range.1 (mem_filter.1 hb).1
  have ha0 : k t a < 0 := by
    obtain ⟨j, hj, hja⟩ := (hpos a ha).2
    have h1 := hexp j a hj han hja (hT t (le_max_left _ _) a ha j hj).2
    have hjI : j ∉ I := fun hh => by
      have := hamax j hh
      omega
    have h2 := hfix t (le_max_right _ _) j hjI
    have h3 := hB j hj
    omega
  have hb0 : 0 < k t b := by
    obtain ⟨j, hj, hbj⟩ := (hpos b hb).1
    have h1 := hexp b j hbn hj hbj (hT t (le_max_left _ _) b hb j hj).1
    have hjI : j ∉ I := fun hh => by
      have := hbmin j hh
      omega
    have h2 := hfix t (le_max_right _ _) j hjI
    have h3 := hB j hj
    omega
  have := hbmin a ha
  omega

/-- The steps form a well-founded relation. -/
theorem step_wf (hw : ∀ i j, 0 ≤ w i j) : WellFounded fun k' k => ∃ i, Step n w i k' k := by
  rw [wellFounded_iff_isEmpty_descending_chain]
  refine ⟨fun ⟨k, hk⟩ => ?_⟩
  choose l hl using hk
  exact no_infinite hw k l hl

end Verif.Bal
