import Verif.Props.Stat5
import Mathlib.Data.Fin.Tuple.Sort

/-!
# Statistics: time weighted mean (C105) and weighted median (C106)
-/

namespace Verif

open Out

variable {n : ℕ}

/-! ## C105 -/

theorem lit_zero' : (lit 0 : XR) = XR.fin 0 := by rw [XR.lit_eq]; norm_num


/-- The mean over time of the broken line through the points `(t i, v i)`, where `σ` lists the points in order of time: the area under
the line by the trapezoidal rule, divided by the duration. -/
noncomputable def timeMean {k : ℕ} (t v : Fin (k + 1) → ℝ) (σ : Equiv.Perm (Fin (k + 1))) : ℝ :=
  (∑ j : Fin k, (t (σ j.succ) - t (σ j.castSucc)) * (v (σ j.succ) + v (σ j.castSucc)) / 2) / (t (σ (Fin.last k)) - t (σ 0))

theorem nearLoop (y : Fin n → ℝ) (u : List XR) :
    forRet n (fun i (_ : Unit) => do
      let a ← rd (vec y u).data i
      let k ← vecContains (vec y u) a (lit 1e-6)
      if k > 1 then return Ctl.ret () else return Ctl.next ()) () =
      ok (if ∃ i j, i ≠ j ∧ |y i - y j| < 1e-6 then Ctl.ret () else Ctl.next ()) := by
  classical
  rw [forRet_unit (fun i => if h : i < n then decide (∃ j, j ≠ ⟨i, h⟩ ∧ |y j - y ⟨i, h⟩| < 1e-6) else false) ()]
  · congr 1
    refine if_congr ?_ rfl rfl
    rw [List.any_eq_true]
    constructor
    · rintro ⟨i, hi, h⟩
      rw [List.mem_range] at hi
      rw [dif_pos hi, decide_eq_true_eq] at h
      obtain ⟨j, hj, h⟩ := h
      exact ⟨j, ⟨i, hi⟩, hj, h⟩
    · rintro ⟨i, j, hij, h⟩
      exact ⟨j, List.mem_range.2 j.2, by rw [dif_pos j.2, decide_eq_true_eq]; exact ⟨i, hij, h⟩⟩
  · intro i hi
    have hl : (lit 1e-6 : XR) = XR.fin 1e-6 := by rw [XR.lit_eq]; norm_num
    rw [show rd (vec y u).data i = ok (XR.fin (y ⟨i, hi⟩)) from vec_rd y u ⟨i, hi⟩, ok_bind, dif_pos hi, hl,
      vec_contains_card _ y _ _ (vec_is y u), ok_bind]
    have hiff : Finset.card {j : Fin n | |y j - y ⟨i, hi⟩| < 1e-6} > 1 ↔ ∃ j, j ≠ ⟨i, hi⟩ ∧ |y j - y ⟨i, hi⟩| < 1e-6 := by
      rw [gt_iff_lt, Finset.one_lt_card]
      constructor
      · rintro ⟨a, ha, b, hb, hab⟩
        rw [Finset.mem_filter] at ha hb
        by_cases h : a = ⟨i, hi⟩
        · exact ⟨b, fun hc => hab (h.trans hc.symm), hb.2⟩
        · exact ⟨a, h, ha.2⟩
      · rintro ⟨j, hj, h⟩
        exact ⟨j, by simpa using h, ⟨i, hi⟩, by simp; norm_num, hj⟩
    by_cases h : ∃ j, j ≠ ⟨i, hi⟩ ∧ |y j - y ⟨i, hi⟩| < 1e-6
    · rw [if_pos (hiff.2 h), decide_eq_true h]; rfl
    · rw [if_neg (fun hc => h (hiff.1 hc)), decide_eq_false h]; rfl

theorem sortedOf_perm_eq (t : Fin n → ℝ) (σ : Equiv.Perm (Fin n)) (h : Monotone fun i => t (σ i)) :
    sortedOf t = List.ofFn fun i => t (σ i) := by
  have hp : (List.ofFn fun i => t (σ i)).Perm (List.ofFn t) := Equiv.Perm.ofFn_comp_perm σ t
  refine ((sortedOf_perm t).trans hp.symm).eq_of_pairwise (fun a b _ _ h1 h2 => le_antisymm h1 h2) (sortedOf_pairwise t) ?_
  rw [List.pairwise_ofFn]
  intro i j hij
  exact h hij.le

/-- Looking the values up by their times. -/
theorem lookupLoop (t v : Fin n → ℝ) (u w : List XR) (σ : Equiv.Perm (Fin n)) (y : Fin n → XR)
    (hd : ∀ i j, |t i - t j| < 1e-6 → i = j) :
    forN n (fun i vs =>
      forN n (fun g vs => do
        let a ← rd (List.ofFn fun i => XR.fin (t (σ i))) i
        let b ← rd (vec t u).data g
        if CReal.lt (CReal.abs (a - b)) (lit 1e-6) then do
          let x ← rd (vec v w).data g
          wr vs i x
        else return vs) vs) (arrOf y []) = ok (arr (fun i => v (σ i)) []) := by
  have hl : (lit 1e-6 : XR) = XR.fin 1e-6 := by rw [XR.lit_eq]; norm_num
  have houter := forN_eq (n := n) (s := arrOf y []) (f := fun i vs =>
      forN n (fun g vs => do
        let a ← rd (List.ofFn fun i => XR.fin (t (σ i))) i
        let b ← rd (vec t u).data g
        if CReal.lt (CReal.abs (a - b)) (lit 1e-6) then do
          let x ← rd (vec v w).data g
          wr vs i x
        else return vs) vs)
    (fun i => arrOf (fun k => if k.val < i then XR.fin (v (σ k)) else y k) []) (by simp) ?_
  · rw [houter]
    congr 1
    unfold arrOf arr
    congr 2
    funext k
    rw [if_pos k.2]
  · intro i hi
    have hin := forN_eq (n := n) (s := arrOf (fun k => if k.val < i then XR.fin (v (σ k)) else y k) []) (f := fun g vs => do
        let a ← rd (List.ofFn fun i => XR.fin (t (σ i))) i
        let b ← rd (vec t u).data g
        if CReal.lt (CReal.abs (a - b)) (lit 1e-6) then do
          let x ← rd (vec v w).data g
          wr vs i x
        else return vs)
      (fun g => arrOf (fun k => if k.val < i ∨ (k.val = i ∧ (σ k).val < g) then XR.fin (v (σ k)) else y k) []) (by simp) ?_
    · rw [hin]
      congr 2
      funext k
      refine if_congr ?_ rfl rfl
      have := (σ k).2
      omega
    · intro g hg
      rw [rd_of (x := XR.fin (t (σ ⟨i, hi⟩))) (by simp [hi]), ok_bind,
        show rd (vec t u).data g = ok (XR.fin (t ⟨g, hg⟩)) from vec_rd t u ⟨g, hg⟩, ok_bind, XR.fin_sub, XR.fin_abs, hl]
      by_cases h : |t (σ ⟨i, hi⟩) - t ⟨g, hg⟩| < 1e-6
      · have hs := hd _ _ h
        rw [if_pos (by rw [XR.fin_lt]; exact h),
          show rd (vec v w).data g = ok (XR.fin (v ⟨g, hg⟩)) from vec_rd v w ⟨g, hg⟩, ok_bind, wr_lt _ (by simp [arrOf, hi])]
        congr 1
        unfold arrOf
        apply List.ext_getElem
        · simp
        · intro k h1 h2
          simp only [List.append_nil, List.getElem_set, List.getElem_ofFn]
          have hk : k < n := by simpa using h2
          by_cases hki : i = k
          · subst hki
            rw [if_pos rfl, if_pos]
            · rw [hs]
            · right
              refine ⟨rfl, ?_⟩
              rw [show σ ⟨i, hk⟩ = ⟨g, hg⟩ from hs]
              simp
          · rw [if_neg hki]
            refine if_congr ?_ rfl rfl
            omega
      · rw [if_neg (by rw [XR.fin_lt]; exact h), pure_eq]
        congr 2
        funext k
        refine if_congr ?_ rfl rfl
        refine or_congr Iff.rfl (and_congr_right fun hki => ?_)
        have : (σ k).val ≠ g := by
          intro hc
          apply h
          have h1 : k = ⟨i, hi⟩ := Fin.ext hki
          have h2 : σ k = ⟨g, hg⟩ := Fin.ext hc
          rw [← h1, h2]
          norm_num
        omega

/-- C105: for non-negative values at pairwise different times, given in any order, the result is the mean over time of the broken line
through the points. The work copy of the times is sorted by `zsl_vec_sort`, so its conditions apply (C12). -/
theorem sta_time_weighted_mean_partial {k : ℕ} (fuel : ℕ) (extra : List XR) (junk : ℕ → XR) (t v : Fin (k + 2) → ℝ) (tt tv : List XR) (m : XR)
    (hv : ∀ i, 0 ≤ v i) (h : SortOK fuel extra t) (hinj : Function.Injective t)
    (σ : Equiv.Perm (Fin (k + 2))) (hσ : Monotone fun i => t (σ i)) :
    staTimeWeightedMean fuel extra junk (vec v tv) (vec t tt) m = ok (0, XR.fin (timeMean t v σ)) := by
  have hd : ∀ i j, |t i - t j| < 1e-6 → i = j := by
    intro i j hij
    rcases h.sep.1 (t i) (List.mem_ofFn.2 ⟨i, rfl⟩) (t j) (List.mem_ofFn.2 ⟨j, rfl⟩) with e | e
    · exact hinj e
    · norm_num at hij e; linarith
  have hne : t (σ (Fin.last (k + 1))) - t (σ 0) ≠ 0 := by
    intro hc
    have := σ.injective (hinj (sub_eq_zero.1 hc))
    have := congrArg Fin.val this
    simp at this
  rw [staTimeWeightedMean, if_neg (by simp), vec_sz, negLoop, ok_bind, if_neg (by push Not; exact hv)]
  dsimp only
  rw [vec_sz, nearLoop, ok_bind, if_neg (by rintro ⟨i, j, hij, hc⟩; exact hij (hd i j hc))]
  dsimp only
  rw [if_neg (by omega), vecUninit_eq, vecSort_sorted _ _ _ _ _ (by omega) h, ok_bind]
  dsimp only
  rw [sortedOf_perm_eq t σ hσ, List.map_ofFn, junkArr_eq]
  have hlk := lookupLoop t v tt tv σ (fun i => junk i.val) hd
  refine Eq.trans (congrArg (fun x => x >>= _) hlk) ?_
  rw [ok_bind]
  have hrt : ∀ i (hi : i < k + 2), rd (List.ofFn (XR.fin ∘ fun i => t (σ i))) i = ok (XR.fin (t (σ ⟨i, hi⟩))) := by
    intro i hi
    exact rd_of (by rw [List.getElem?_ofFn, dif_pos hi]; rfl)
  have hrv : ∀ i (hi : i < k + 2), rd (arr (fun i => v (σ i)) []) i = ok (XR.fin (v (σ ⟨i, hi⟩))) := by
    intro i hi
    exact rd_of (by rw [arr, List.append_nil, List.getElem?_ofFn, dif_pos hi])
  rw [show k + 2 - 1 = k + 1 by omega, hrt (k + 1) (by omega), hrt 0 (by omega)]
  have hsum : forN (k + 1) (fun j' sum => do
            let t1 ← rd (List.ofFn (XR.fin ∘ fun i => t (σ i))) (j' + 1)
            let t0 ← rd (List.ofFn (XR.fin ∘ fun i => t (σ i))) j'
            let v1 ← rd (arr (fun i => v (σ i)) []) (j' + 1)
            let v0 ← rd (arr (fun i => v (σ i)) []) j'
            return sum + (t1 - t0) * (v1 + v0) / lit 2) (lit 0) =
      ok (XR.fin (∑ j : Fin (k + 1), (t (σ j.succ) - t (σ j.castSucc)) * (v (σ j.succ) + v (σ j.castSucc)) / 2)) := by
    rw [lit_zero', forN_sum (fun j : Fin (k + 1) => (t (σ j.succ) - t (σ j.castSucc)) * (v (σ j.succ) + v (σ j.castSucc)) / 2)]
    · rw [zero_add]
    · intro j s
      rw [hrt (j + 1) (by omega), hrt j (by omega), hrv (j + 1) (by omega), hrv j (by omega)]
      simp only [ok_bind, XR.fin_sub, XR.fin_add, XR.fin_mul, lit_two]
      rw [XR.fin_div (by norm_num), XR.fin_add]
      rfl
  refine Eq.trans (congrArg (fun x => x >>= _) hsum) ?_
  simp only [ok_bind, XR.fin_sub]
  refine Eq.trans (congrArg (fun x => ok ((0 : ℤ), x)) (XR.fin_div hne)) ?_
  rfl

/-- C105: the time weighted mean lies between any bounds of the values. -/
theorem sta_time_weighted_mean_between_partial {k : ℕ} (fuel : ℕ) (extra : List XR) (junk : ℕ → XR) (t v : Fin (k + 2) → ℝ) (tt tv : List XR)
    (m : XR) (lo hi : ℝ) (hv : ∀ i, 0 ≤ v i) (h : SortOK fuel extra t) (hinj : Function.Injective t)
    (hlo : ∀ i, lo ≤ v i) (hhi : ∀ i, v i ≤ hi) :
    ∃ a, staTimeWeightedMean fuel extra junk (vec v tv) (vec t tt) m = ok (0, XR.fin a) ∧ lo ≤ a ∧ a ≤ hi := by
  have hσ := Tuple.monotone_sort t
  set σ := Tuple.sort t with hσdef
  have hmono : Monotone fun i => t (σ i) := hσ
  refine ⟨_, sta_time_weighted_mean_partial fuel extra junk t v tt tv m hv h hinj σ hmono, ?_⟩
  have hlt : 0 < t (σ (Fin.last (k + 1))) - t (σ 0) := by
    have h1 := hmono (Fin.zero_le (Fin.last (k + 1)))
    refine lt_of_le_of_ne (by simpa using h1) ?_
    intro hc
    have := congrArg Fin.val (σ.injective (hinj (sub_eq_zero.1 hc.symm)))
    simp at this
  have htel : t (σ (Fin.last (k + 1))) - t (σ 0) = ∑ j : Fin (k + 1), (t (σ j.succ) - t (σ j.castSucc)) := by
    rw [Finset.sum_sub_distrib]
    have h1 := Fin.sum_univ_succ fun i => t (σ i)
    have h2 := Fin.sum_univ_castSucc fun i => t (σ i)
    linarith
  unfold timeMean
  constructor
  · rw [le_div_iff₀ hlt, htel, Finset.mul_sum]
    refine Finset.sum_le_sum fun j _ => ?_
    have h1 : t (σ j.castSucc) ≤ t (σ j.succ) := hmono (Fin.castSucc_lt_succ).le
    nlinarith [hlo (σ j.succ), hlo (σ j.castSucc)]
  · rw [div_le_iff₀ hlt, htel, Finset.mul_sum]
    refine Finset.sum_le_sum fun j _ => ?_
    have h1 : t (σ j.castSucc) ≤ t (σ j.succ) := hmono (Fin.castSucc_lt_succ).le
    nlinarith [hhi (σ j.succ), hhi (σ j.castSucc)]

/-- C105: a size mismatch, a negative value, or two times less than 1e-6 apart are refused and the output is left alone. -/
theorem sta_time_weighted_mean_rejects (fuel : ℕ) (extra : List XR) (junk : ℕ → XR) (t v : Fin n → ℝ) (tt tv : List XR) (m : XR)
    (h : (∃ i, v i < 0) ∨ ∃ i j, i ≠ j ∧ |t i - t j| < 1e-6) :
    staTimeWeightedMean fuel extra junk (vec v tv) (vec t tt) m = ok (-EINVAL, m) := by
  rw [staTimeWeightedMean, if_neg (by simp), vec_sz, negLoop, ok_bind]
  by_cases h1 : ∃ i, v i < 0
  · rw [if_pos h1]; rfl
  · rw [if_neg h1]
    dsimp only
    rw [vec_sz, nearLoop, ok_bind, if_pos (h.resolve_left h1)]
    rfl

/-- C105: size mismatch. -/
theorem sta_time_weighted_mean_mismatch {R : Type} [CReal R] (fuel : ℕ) (extra : List R) (junk : ℕ → R) (v t : Vec R) (m : R)
    (h : v.sz ≠ t.sz) : staTimeWeightedMean fuel extra junk v t m = ok (-EINVAL, m) := by
  rw [staTimeWeightedMean, if_pos h]

/-- C105 fails for one sample: the result is not a number although the value is known. -/
theorem sta_time_weighted_mean_single (fuel : ℕ) (extra : List XR) (junk : ℕ → XR) (t v : Fin 1 → ℝ) (tt tv : List XR) (m : XR)
    (hv : 0 ≤ v 0) (h : SortOK fuel extra t) :
    staTimeWeightedMean fuel extra junk (vec v tv) (vec t tt) m = ok (0, XR.nan) := by
  have hd : ∀ i j : Fin 1, |t i - t j| < 1e-6 → i = j := fun i j _ => Subsingleton.elim i j
  rw [staTimeWeightedMean, if_neg (by simp), vec_sz, negLoop, ok_bind,
    if_neg (by push Not; intro i; rw [Subsingleton.elim i 0]; exact hv)]
  dsimp only
  rw [vec_sz, nearLoop, ok_bind, if_neg (by rintro ⟨i, j, hij, hc⟩; exact hij (hd i j hc))]
  dsimp only
  rw [if_neg (by omega), vecUninit_eq, vecSort_sorted _ _ _ _ _ (by omega) h, ok_bind]
  dsimp only
  rw [sortedOf_perm_eq t 1 (fun i j _ => by rw [Subsingleton.elim i j]), List.map_ofFn, junkArr_eq]
  have hlk := lookupLoop t v tt tv 1 (fun i => junk i.val) hd
  refine Eq.trans (congrArg (fun x => x >>= _) hlk) ?_
  rw [ok_bind]
  have hrt : rd (List.ofFn (XR.fin ∘ fun i => t ((1 : Equiv.Perm (Fin 1)) i))) 0 = ok (XR.fin (t 0)) := rd_of (by simp)
  rw [show (1 : ℕ) - 1 = 0 from rfl, forN_zero, ok_bind, hrt, ok_bind, ok_bind, XR.fin_sub, sub_self, lit_zero', pure_eq]
  refine congrArg (fun x => ok ((0 : ℤ), x)) ?_
  show XR.div (XR.fin 0) (XR.fin 0) = XR.nan
  simp [XR.div, XR.infOf]

/-- C105: no samples: undefined behaviour (arrays of length zero). -/
theorem sta_time_weighted_mean_empty {R : Type} [CReal R] (fuel : ℕ) (extra : List R) (junk : ℕ → R) (v t : Vec R) (m : R)
    (hv : v.sz = 0) (ht : t.sz = 0) : staTimeWeightedMean fuel extra junk v t m = ub := by
  rw [staTimeWeightedMean, if_neg (by omega), hv, forRet_zero, ok_bind]
  dsimp only
  rw [ht, forRet_zero, ok_bind, if_pos rfl]

/-- Non-vacuity of C105: readings 1, 3, 3 at the times 0, 2, 1 (in that order of arrival) have the time weighted mean 5/2. -/
example (junk : ℕ → XR) (m : XR) :
    staTimeWeightedMean 10 [XR.fin 0] junk (vec ![1, 3, 3] []) (vec ![0, 2, 1] []) m = ok (0, XR.fin (5 / 2)) := by
  have h : SortOK 10 [XR.fin 0] ![(0 : ℝ), 2, 1] := by
    refine ⟨⟨?_, ?_⟩, Or.inl (by simp), by omega, by rw [SIZE_MOD_eq]; simp⟩
    · intro a ha b hb
      simp only [List.ofFn_succ, List.ofFn_zero, Matrix.cons_val_zero, Matrix.cons_val_succ, List.mem_cons, List.not_mem_nil, or_false] at ha hb
      rcases ha with rfl | rfl | rfl <;> rcases hb with rfl | rfl | rfl <;> norm_num
    · intro a ha
      simp only [List.ofFn_succ, List.ofFn_zero, Matrix.cons_val_zero, Matrix.cons_val_succ, List.mem_cons, List.not_mem_nil, or_false] at ha
      rcases ha with rfl | rfl | rfl <;> norm_num
  have hi : Function.Injective ![(0 : ℝ), 2, 1] := by
    intro i j hij
    fin_cases i <;> fin_cases j <;> simp_all
  rw [sta_time_weighted_mean_partial (k := 1) 10 _ junk _ _ [] [] m ?_ h hi (Equiv.swap 1 2) ?_]
  · refine congrArg (fun x => ok ((0 : ℤ), XR.fin x)) ?_
    simp [timeMean, Fin.sum_univ_succ, Equiv.swap_apply_def]
    norm_num
  · intro i
    fin_cases i <;> norm_num
  · intro i j hij
    fin_cases i <;> fin_cases j <;> simp_all [Equiv.swap_apply_def]

/-! ## C106 -/

/-- `m` is a weighted median of the data up to `ε`: the data below `m` have at most half the weight, and so do the data above. -/
def IsWMedian (x w : Fin n → ℝ) (ε m : ℝ) : Prop :=
  (∑ i with x i < m, w i) ≤ 1 / 2 + ε ∧ (∑ i with m < x i, w i) ≤ 1 / 2 + ε

/-- Sum of the first `k` weights. -/
noncomputable def headSum (w : Fin n → ℝ) (k : ℕ) : ℝ := ∑ i with i.val < k, w i

theorem headSum_zero (w : Fin n → ℝ) : headSum w 0 = 0 := by simp [headSum]

theorem headSum_succ (w : Fin n → ℝ) {k : ℕ} (h : k < n) : headSum w (k + 1) = headSum w k + w ⟨k, h⟩ := by
  unfold headSum
  have : (Finset.univ.filter fun i : Fin n => i.val < k + 1) = insert ⟨k, h⟩ (Finset.univ.filter fun i : Fin n => i.val < k) := by
    ext i
    simp [Fin.ext_iff]
    omega
  rw [this, Finset.sum_insert (by simp), add_comm]

theorem headSum_all (w : Fin n → ℝ) : headSum w n = ∑ i, w i := by
  unfold headSum
  congr 1
  ext i
  simp

theorem headSum_tail (w : Fin n → ℝ) (k : ℕ) : (∑ i with k ≤ i.val, w i) = (∑ i, w i) - headSum w k := by
  unfold headSum
  rw [eq_sub_iff_add_eq, ← Finset.sum_filter_add_sum_filter_not Finset.univ (fun i : Fin n => k ≤ i.val)]
  congr 2
  ext i
  simp

theorem medWeights (w : Fin n → ℝ) (u : List XR) (hw : ∀ i, 0 ≤ w i) :
    forRet n (fun i sum => do
      let a ← rd (vec w u).data i
      if CReal.lt a (lit 0) then return Ctl.ret () else return Ctl.next (sum + a)) (lit 0) =
      ok (Ctl.next (XR.fin (∑ i, w i)) : Ctl XR Unit) := by
  rw [forRet_next (fun i => XR.fin (headSum w i)) (by rw [headSum_zero, lit_zero']), headSum_all]
  intro i hi
  rw [show rd (vec w u).data i = ok (XR.fin (w ⟨i, hi⟩)) from vec_rd w u ⟨i, hi⟩, ok_bind, lit_zero',
    if_neg (by rw [XR.fin_lt]; exact not_lt.2 (hw _)), XR.fin_add, headSum_succ w hi]
  rfl

theorem wmedLoop_eq (w : Fin n → ℝ) (u : List XR) (K : ℕ) (hK : K ≤ n) (hgt : 1 / 2 < headSum w K)
    (hmin : ∀ i, i < K → headSum w i ≤ 1 / 2) :
    ∀ d i fuel, i + d = K → d < fuel → wmedLoop fuel (vec w u).data (XR.fin (headSum w i)) i = ok (XR.fin (headSum w K), K) := by
  have hl : (lit 0.5 : XR) = XR.fin (1 / 2) := by rw [XR.lit_eq]; norm_num
  intro d
  induction d with
  | zero =>
    intro i fuel h1 h2
    have : i = K := by omega
    subst this
    unfold wmedLoop
    rw [if_neg (by rw [hl, XR.fin_le]; exact not_le.2 hgt)]
  | succ d ih =>
    intro i fuel h1 h2
    obtain ⟨fuel, rfl⟩ : ∃ f, fuel = f + 1 := ⟨fuel - 1, by omega⟩
    unfold wmedLoop
    rw [if_pos (by rw [hl, XR.fin_le]; exact hmin i (by omega))]
    dsimp only
    rw [show rd (vec w u).data i = ok (XR.fin (w ⟨i, by omega⟩)) from vec_rd w u ⟨i, by omega⟩, ok_bind, XR.fin_add,
      ← headSum_succ w (by omega)]
    exact ih (i + 1) fuel (by omega) (by omega)

/-- The value `zsl_sta_weighted_median` computes: position `k` of the sorted data, where the first `k` weights do not exceed one half
and the first `k + 1` do. -/
theorem staWeightedMedian_value (fuel : ℕ) (extra : List XR) (junk : ℕ → XR) (x w : Fin n → ℝ) (tx tw : List XR) (m : XR)
    (hw : ∀ i, 0 ≤ w i) (hs : |(∑ i, w i) - 1| ≤ 1e-6) (h : SortOK fuel extra x) :
    ∃ k, k < n ∧ headSum w k ≤ 1 / 2 ∧ 1 / 2 < headSum w (k + 1) ∧
      staWeightedMedian fuel extra junk (vec x tx) (vec w tw) m =
        ok (0, XR.fin (if |headSum w k - 1 / 2| < 1e-6 then ((sortedOf x).getD k 0 + (sortedOf x).getD (k - 1) 0) / 2
          else (sortedOf x).getD k 0)) ∧ (|headSum w k - 1 / 2| < 1e-6 → 1 ≤ k) := by
  classical
  have hex : ∃ i, 1 / 2 < headSum w i := ⟨n, by rw [headSum_all]; rw [abs_le] at hs; norm_num at hs ⊢; linarith [hs.1]⟩
  obtain ⟨K, hKgt, hKmin⟩ : ∃ K, 1 / 2 < headSum w K ∧ ∀ i, i < K → headSum w i ≤ 1 / 2 :=
    ⟨Nat.find hex, Nat.find_spec hex, fun i hi => not_lt.1 (Nat.find_min hex hi)⟩
  have hKn : K ≤ n := by
    by_contra hc
    have := hKmin n (by omega)
    rw [headSum_all] at this
    rw [abs_le] at hs
    norm_num at hs this
    linarith [hs.1]
  obtain ⟨k, rfl⟩ : ∃ k, K = k + 1 := by
    refine ⟨K - 1, ?_⟩
    by_contra hc
    have : K = 0 := by omega
    subst this
    rw [headSum_zero] at hKgt
    norm_num at hKgt
  have hk1 : |headSum w k - 1 / 2| < 1e-6 → 1 ≤ k := by
    intro hc
    by_contra hk
    have : k = 0 := by omega
    subst this
    rw [headSum_zero, abs_lt] at hc
    norm_num at hc
  have hl : (lit 1e-6 : XR) = XR.fin 1e-6 := by rw [XR.lit_eq]; norm_num
  have hl1 : (lit 1 : XR) = XR.fin 1 := by rw [XR.lit_eq]; norm_num
  have hl5 : (lit 0.5 : XR) = XR.fin (1 / 2) := by rw [XR.lit_eq]; norm_num
  refine ⟨k, by omega, hKmin k (by omega), hKgt, ?_, hk1⟩
  rw [staWeightedMedian, if_neg (by simp), vec_sz]
  refine Eq.trans (congrArg (fun x => x >>= _) (medWeights w tw hw)) ?_
  rw [ok_bind]
  dsimp only
  rw [hl1, XR.fin_sub, XR.fin_abs, hl, if_neg (by rw [XR.fin_gt]; exact not_lt.2 hs), if_neg (by omega)]
  have hloop := wmedLoop_eq w tw (k + 1) hKn hKgt hKmin (k + 1) 0 ((vec w tw).data.length + 1) (by omega)
    (by simp [vec, arr]; omega)
  rw [headSum_zero] at hloop
  rw [lit_zero', hloop, ok_bind]
  dsimp only
  have hrw : rdI (vec w tw).data (((k + 1 : ℕ) : ℤ) - 1) = ok (XR.fin (w ⟨k, by omega⟩)) := by
    rw [show (((k + 1 : ℕ) : ℤ) - 1) = (k : ℤ) by omega, rdI, if_pos (by omega), Int.toNat_natCast]
    exact vec_rd w tw ⟨k, by omega⟩
  have hlen := sortedOf_length x
  have hrs : rdI ((sortedOf x).map XR.fin) (((k + 1 : ℕ) : ℤ) - 1) = ok (XR.fin ((sortedOf x).getD k 0)) := by
    rw [show (((k + 1 : ℕ) : ℤ) - 1) = (k : ℤ) by omega, rdI_map _ _ (by omega)]
  rw [hrw, ok_bind, XR.fin_sub, headSum_succ w (by omega), add_sub_cancel_right, vecUninit_eq, vecInit_vec, ok_bind]
  dsimp only
  rw [vec_eq_vecOf (0 : Fin n → ℝ), vecSort_sorted _ _ _ _ _ (by omega) h, ok_bind]
  dsimp only
  rw [hl5, XR.fin_sub, XR.fin_abs, hrs]
  by_cases hc : |headSum w k - 1 / 2| < 1e-6
  · have := hk1 hc
    have hrs2 : rdI ((sortedOf x).map XR.fin) (((k + 1 : ℕ) : ℤ) - 2) = ok (XR.fin ((sortedOf x).getD (k - 1) 0)) := by
      rw [show (((k + 1 : ℕ) : ℤ) - 2) = ((k - 1 : ℕ) : ℤ) by omega, rdI_map _ _ (by omega)]
    rw [if_pos (by rw [XR.fin_lt]; exact hc), if_pos hc, ok_bind, hrs2, ok_bind, lit_two, XR.fin_add, XR.fin_div (by norm_num)]
    rfl
  · rw [if_neg (by rw [XR.fin_lt]; exact hc), if_neg hc, ok_bind]
    rfl

theorem sum_filter_le (w : Fin n → ℝ) (hw : ∀ i, 0 ≤ w i) (p q : Fin n → Prop) [DecidablePred p] [DecidablePred q] (h : ∀ i, p i → q i) :
    (∑ i with p i, w i) ≤ ∑ i with q i, w i :=
  Finset.sum_le_sum_of_subset_of_nonneg (fun i hi => by simp only [Finset.mem_filter, Finset.mem_univ, true_and] at hi ⊢; exact h i hi)
    fun i _ _ => hw i

/-- C106, part: if the data are given in ascending order, with non-negative weights adding up to 1 (within the 1e-6 the code allows), the
result is a weighted median up to 2e-6, and lies between two of the data. In any other order the weights are applied to the wrong data,
see `sta_weighted_median_order`. -/
theorem sta_weighted_median_partial (fuel : ℕ) (extra : List XR) (junk : ℕ → XR) (x w : Fin n → ℝ) (tx tw : List XR) (m : XR)
    (hx : Monotone x) (hw : ∀ i, 0 ≤ w i) (hs : |(∑ i, w i) - 1| ≤ 1e-6) (h : SortOK fuel extra x) :
    ∃ a, staWeightedMedian fuel extra junk (vec x tx) (vec w tw) m = ok (0, XR.fin a) ∧ IsWMedian x w 2e-6 a ∧ ∃ i j, x i ≤ a ∧ a ≤ x j := by
  obtain ⟨k, hk, h1, h2, e, hpos⟩ := staWeightedMedian_value fuel extra junk x w tx tw m hw hs h
  refine ⟨_, e, ?_⟩
  have hsorted : sortedOf x = List.ofFn x := by
    have := sortedOf_perm_eq x 1 (by simpa using hx)
    simpa using this
  have hget : ∀ i (hi : i < n), (sortedOf x).getD i 0 = x ⟨i, hi⟩ := by
    intro i hi
    rw [hsorted, List.getD_eq_getElem _ _ (by simpa using hi), List.getElem_ofFn]
  rw [abs_le] at hs
  by_cases hc : |headSum w k - 1 / 2| < 1e-6
  · have hk1 := hpos hc
    rw [if_pos hc, hget k hk, hget (k - 1) (by omega)]
    have hle : x ⟨k - 1, by omega⟩ ≤ x ⟨k, hk⟩ := hx (by simp)
    refine ⟨⟨?_, ?_⟩, ⟨k - 1, by omega⟩, ⟨k, hk⟩, by linarith, by linarith⟩
    · have : (∑ i with x i < (x ⟨k, hk⟩ + x ⟨k - 1, by omega⟩) / 2, w i) ≤ headSum w k := by
        refine sum_filter_le w hw _ _ fun i hi => ?_
        by_contra hki
        have : x ⟨k, hk⟩ ≤ x i := hx (by rw [Fin.le_def]; simpa using hki)
        linarith
      norm_num at this ⊢
      linarith
    · have : (∑ i with (x ⟨k, hk⟩ + x ⟨k - 1, by omega⟩) / 2 < x i, w i) ≤ ∑ i with k ≤ i.val, w i := by
        refine sum_filter_le w hw _ _ fun i hi => ?_
        by_contra hki
        have : x i ≤ x ⟨k - 1, by omega⟩ := hx (by rw [Fin.le_def]; simp; omega)
        linarith
      rw [headSum_tail] at this
      rw [abs_lt] at hc
      norm_num at this hs hc ⊢
      linarith
  · rw [if_neg hc, hget k hk]
    refine ⟨⟨?_, ?_⟩, ⟨k, hk⟩, ⟨k, hk⟩, le_rfl, le_rfl⟩
    · have : (∑ i with x i < x ⟨k, hk⟩, w i) ≤ headSum w k := by
        refine sum_filter_le w hw _ _ fun i hi => ?_
        by_contra hki
        have : x ⟨k, hk⟩ ≤ x i := hx (by rw [Fin.le_def]; simpa using hki)
        linarith
      norm_num at this ⊢
      linarith
    · have : (∑ i with x ⟨k, hk⟩ < x i, w i) ≤ ∑ i with k + 1 ≤ i.val, w i := by
        refine sum_filter_le w hw _ _ fun i hi => ?_
        by_contra hki
        have : x i ≤ x ⟨k, hk⟩ := hx (by rw [Fin.le_def]; simp; omega)
        linarith
      rw [headSum_tail] at this
      norm_num at this hs ⊢
      linarith

/-- C106, part: if in addition the weights add up to exactly 1 and no sum of the first weights is closer to one half than 1e-6 without
being one half, the result is an exact weighted median. -/
theorem sta_weighted_median_exact_partial (fuel : ℕ) (extra : List XR) (junk : ℕ → XR) (x w : Fin n → ℝ) (tx tw : List XR) (m : XR)
    (hx : Monotone x) (hw : ∀ i, 0 ≤ w i) (hs : ∑ i, w i = 1) (h : SortOK fuel extra x)
    (hsep : ∀ k, (∑ i with i.val < k, w i) = 1 / 2 ∨ 1e-6 ≤ |(∑ i with i.val < k, w i) - 1 / 2|) :
    ∃ a, staWeightedMedian fuel extra junk (vec x tx) (vec w tw) m = ok (0, XR.fin a) ∧ IsWMedian x w 0 a := by
  obtain ⟨k, hk, h1, h2, e, hpos⟩ := staWeightedMedian_value fuel extra junk x w tx tw m hw (by rw [hs]; norm_num) h
  refine ⟨_, e, ?_⟩
  have hsorted : sortedOf x = List.ofFn x := by
    have := sortedOf_perm_eq x 1 (by simpa using hx)
    simpa using this
  have hget : ∀ i (hi : i < n), (sortedOf x).getD i 0 = x ⟨i, hi⟩ := by
    intro i hi
    rw [hsorted, List.getD_eq_getElem _ _ (by simpa using hi), List.getElem_ofFn]
  by_cases hc : |headSum w k - 1 / 2| < 1e-6
  · have hk1 := hpos hc
    have hhalf : headSum w k = 1 / 2 := (hsep k).resolve_right (not_le.2 hc)
    rw [if_pos hc, hget k hk, hget (k - 1) (by omega)]
    have hle : x ⟨k - 1, by omega⟩ ≤ x ⟨k, hk⟩ := hx (by simp)
    refine ⟨?_, ?_⟩
    · refine le_trans (sum_filter_le w hw _ (fun i => i.val < k) fun i hi => ?_) (le_of_eq (by rw [add_zero]; exact hhalf))
      by_contra hki
      have : x ⟨k, hk⟩ ≤ x i := hx (by rw [Fin.le_def]; simpa using hki)
      linarith
    · refine le_trans (sum_filter_le w hw _ (fun i => k ≤ i.val) fun i hi => ?_) (le_of_eq (by rw [headSum_tail, hs, hhalf]; norm_num))
      by_contra hki
      have : x i ≤ x ⟨k - 1, by omega⟩ := hx (by rw [Fin.le_def]; simp; omega)
      linarith
  · rw [if_neg hc, hget k hk]
    refine ⟨?_, ?_⟩
    · refine le_trans (sum_filter_le w hw _ (fun i => i.val < k) fun i hi => ?_) (by rw [add_zero]; exact h1)
      by_contra hki
      have : x ⟨k, hk⟩ ≤ x i := hx (by rw [Fin.le_def]; simpa using hki)
      linarith
    · refine le_trans (sum_filter_le w hw _ (fun i => k + 1 ≤ i.val) fun i hi => ?_) (by rw [headSum_tail, hs]; linarith)
      by_contra hki
      have : x i ≤ x ⟨k, hk⟩ := hx (by rw [Fin.le_def]; simp; omega)
      linarith

theorem sorted311 : sortedOf ![(3 : ℝ), 1, 1] = [1, 1, 3] := by
  have hp : ([1, 1, 3] : List ℝ).Perm (List.ofFn ![(3 : ℝ), 1, 1]) := by
    simp only [List.ofFn_succ, List.ofFn_zero, Matrix.cons_val_zero, Matrix.cons_val_succ]
    exact (List.Perm.cons 1 (List.Perm.swap 3 1 [])).trans (List.Perm.swap 3 1 [1])
  refine (((sortedOf_perm _).trans hp.symm).eq_of_pairwise (fun a b _ _ h1 h2 => le_antisymm h1 h2) (sortedOf_pairwise _) ?_)
  norm_num

theorem sortOK311 : SortOK 6 [] ![(3 : ℝ), 1, 1] := by
  refine ⟨⟨?_, ?_⟩, Or.inr ?_, by omega, by rw [SIZE_MOD_eq]; simp⟩
  · intro a ha b hb
    simp only [List.ofFn_succ, List.ofFn_zero, Matrix.cons_val_zero, Matrix.cons_val_succ, List.mem_cons, List.not_mem_nil, or_false] at ha hb
    rcases ha with rfl | rfl | rfl <;> rcases hb with rfl | rfl | rfl <;> norm_num [abs_of_neg]
  · intro a ha
    simp only [List.ofFn_succ, List.ofFn_zero, Matrix.cons_val_zero, Matrix.cons_val_succ, List.mem_cons, List.not_mem_nil, or_false] at ha
    rcases ha with rfl | rfl | rfl <;> norm_num
  · intro hc
    have := @hc 1 2 (by simp)
    simp at this

/-- C106 fails for data out of order: the data are sorted but their weights are not moved with them. For the values 3, 1, 1 with the
weights 0.7, 0.2, 0.1 the answer is 1, although the data above 1 have weight 0.7. -/
theorem sta_weighted_median_order (junk : ℕ → XR) (m : XR) :
    staWeightedMedian 6 [] junk (vec ![3, 1, 1] []) (vec ![0.7, 0.2, 0.1] []) m = ok (0, XR.fin 1) ∧
      ¬ IsWMedian ![3, 1, 1] ![0.7, 0.2, 0.1] 0.1 1 := by
  constructor
  · obtain ⟨k, hk, h1, h2, e, hpos⟩ := staWeightedMedian_value 6 [] junk ![3, 1, 1] ![0.7, 0.2, 0.1] [] [] m
      (by intro i; fin_cases i <;> norm_num) (by simp [Fin.sum_univ_succ]; norm_num) sortOK311
    have hk0 : k = 0 := by
      by_contra hne
      have : headSum ![(0.7 : ℝ), 0.2, 0.1] 1 ≤ headSum ![(0.7 : ℝ), 0.2, 0.1] k :=
        sum_filter_le _ (by intro i; fin_cases i <;> norm_num) _ _ fun i hi => by omega
      rw [headSum_succ _ (by omega), headSum_zero] at this
      norm_num at this h1
      linarith
    subst hk0
    rw [e, headSum_zero, if_neg (by norm_num [abs_of_neg]), sorted311]
    rfl
  · rintro ⟨-, h⟩
    rw [Finset.sum_filter] at h
    simp [Fin.sum_univ_succ] at h
    norm_num at h

/-- C106: a negative weight or weights that do not add up to 1 within 1e-6 are refused and the output is left alone. -/
theorem sta_weighted_median_rejects (fuel : ℕ) (extra : List XR) (junk : ℕ → XR) (x w : Fin n → ℝ) (tx tw : List XR) (m : XR)
    (h : (∃ i, w i < 0) ∨ 1e-6 < |(∑ i, w i) - 1|) :
    staWeightedMedian fuel extra junk (vec x tx) (vec w tw) m = ok (-EINVAL, m) := by
  rw [staWeightedMedian, if_neg (by simp), vec_sz]
  by_cases hneg : ∃ i, w i < 0
  · have hloop : forRet n (fun i sum => do
      let a ← rd (vec w tw).data i
      if CReal.lt a (lit 0) then return Ctl.ret () else return Ctl.next (sum + a)) (lit 0) =
      ok (Ctl.ret () : Ctl XR Unit) := by
      classical
      obtain ⟨i0, hi0⟩ := hneg
      have hex : ∃ i, ∃ hi : i < n, w ⟨i, hi⟩ < 0 := ⟨i0, i0.2, hi0⟩
      obtain ⟨hlt, hf⟩ := Nat.find_spec hex
      refine forRet_prefix (k := Nat.find hex) (fun i => XR.fin (headSum w i)) hlt (by rw [headSum_zero, lit_zero']) ?_ ?_
      · intro i hi
        have hin : i < n := by omega
        have hnn : ¬ w ⟨i, hin⟩ < 0 := fun hc => Nat.find_min hex hi ⟨hin, hc⟩
        rw [show rd (vec w tw).data i = ok (XR.fin (w ⟨i, hin⟩)) from vec_rd w tw ⟨i, hin⟩, ok_bind, lit_zero',
          if_neg (by rw [XR.fin_lt]; exact hnn), XR.fin_add, headSum_succ w hin]
        rfl
      · rw [show rd (vec w tw).data (Nat.find hex) = ok (XR.fin (w ⟨Nat.find hex, hlt⟩)) from vec_rd w tw ⟨Nat.find hex, hlt⟩, ok_bind,
          lit_zero', if_pos (by rw [XR.fin_lt]; exact hf)]
        rfl
    refine Eq.trans (congrArg (fun x => x >>= _) hloop) ?_
    rfl
  · have hw : ∀ i, 0 ≤ w i := by push Not at hneg; exact hneg
    have hl : (lit 1e-6 : XR) = XR.fin 1e-6 := by rw [XR.lit_eq]; norm_num
    have hl1 : (lit 1 : XR) = XR.fin 1 := by rw [XR.lit_eq]; norm_num
    refine Eq.trans (congrArg (fun x => x >>= _) (medWeights w tw hw)) ?_
    rw [ok_bind]
    dsimp only
    rw [hl1, XR.fin_sub, XR.fin_abs, hl, if_pos (by rw [XR.fin_gt]; exact h.resolve_left hneg)]
    rfl

/-- C106: size mismatch. -/
theorem sta_weighted_median_mismatch {R : Type} [CReal R] (fuel : ℕ) (extra : List R) (junk : ℕ → R) (v w : Vec R) (m : R)
    (h : v.sz ≠ w.sz) : staWeightedMedian fuel extra junk v w m = ok (-EINVAL, m) := by
  rw [staWeightedMedian, if_pos h]

/-- Non-vacuity of C106: two values 1 with the weights 0.2 and 0.3, and the value 3 with weight 0.5: the answer is 2. -/
example (junk : ℕ → XR) (m : XR) :
    staWeightedMedian 6 [] junk (vec ![1, 1, 3] []) (vec ![0.2, 0.3, 0.5] []) m = ok (0, XR.fin 2) := by
  have hok : SortOK 6 [] ![(1 : ℝ), 1, 3] := by
    refine ⟨⟨?_, ?_⟩, Or.inr ?_, by omega, by rw [SIZE_MOD_eq]; simp⟩
    · intro a ha b hb
      simp only [List.ofFn_succ, List.ofFn_zero, Matrix.cons_val_zero, Matrix.cons_val_succ, List.mem_cons, List.not_mem_nil, or_false] at ha hb
      rcases ha with rfl | rfl | rfl <;> rcases hb with rfl | rfl | rfl <;> norm_num [abs_of_neg]
    · intro a ha
      simp only [List.ofFn_succ, List.ofFn_zero, Matrix.cons_val_zero, Matrix.cons_val_succ, List.mem_cons, List.not_mem_nil, or_false] at ha
      rcases ha with rfl | rfl | rfl <;> norm_num
    · intro hc
      have := @hc 0 1 (by simp)
      simp at this
  have hmono : Monotone ![(1 : ℝ), 1, 3] := by
    intro i j hij
    fin_cases i <;> fin_cases j <;> simp_all
  obtain ⟨k, hk, h1, h2, e, hpos⟩ := staWeightedMedian_value 6 [] junk ![1, 1, 3] ![0.2, 0.3, 0.5] [] [] m
    (by intro i; fin_cases i <;> norm_num) (by simp [Fin.sum_univ_succ]; norm_num) hok
  have hH : headSum ![(0.2 : ℝ), 0.3, 0.5] 2 = 1 / 2 := by
    rw [headSum_succ _ (by omega), headSum_succ _ (by omega), headSum_zero]
    norm_num
  have hk2 : k = 2 := by
    by_contra hne
    have : headSum ![(0.2 : ℝ), 0.3, 0.5] (k + 1) ≤ headSum ![(0.2 : ℝ), 0.3, 0.5] 2 :=
      sum_filter_le _ (by intro i; fin_cases i <;> norm_num) _ _ fun i hi => by omega
    rw [hH] at this
    linarith
  subst hk2
  have hsorted : sortedOf ![(1 : ℝ), 1, 3] = [1, 1, 3] := by
    have := sortedOf_perm_eq ![(1 : ℝ), 1, 3] 1 hmono
    simpa using this
  rw [e, hH, if_pos (by norm_num), hsorted]
  refine congrArg (fun x => ok ((0 : ℤ), XR.fin x)) ?_
  norm_num

end Verif
