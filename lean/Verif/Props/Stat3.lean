import Verif.Props.Stat2

/-!
# Statistics: trimmed mean (C42) and measures of dispersion (C83)
-/

namespace Verif

open Out

variable {n : ℕ}

/-! ## C42: trimmed mean -/

/-- C42: `p` outside 0..50 is refused. -/
theorem sta_trim_mean_reject (fuel : ℕ) (extra : List XR) (junk : ℕ → XR) (v : Vec XR) (p : ℝ) (m : XR) (h : p < 0 ∨ 50 < p) :
    staTrimMean fuel extra junk v (XR.fin p) m = ok (-EINVAL, m) := by
  rw [staTrimMean, if_pos]
  rw [Bool.or_eq_true, XR.lit_eq, XR.lit_eq, XR.fin_lt, XR.fin_gt]
  norm_num
  tauto

/-- A sorted list splits at two bounds. -/
theorem sorted_split (l : List ℝ) (hs : l.Pairwise (· ≤ ·)) (lo hi : ℝ) :
    ∃ A B C, l = A ++ B ++ C ∧ (∀ a ∈ A, a < lo) ∧ (∀ b ∈ B, lo ≤ b ∧ b ≤ hi) ∧ (∀ c ∈ C, hi < c) ∧
      B = l.filter fun b => decide (lo ≤ b ∧ b ≤ hi) := by
  induction l with
  | nil => exact ⟨[], [], [], by simp⟩
  | cons a l ih =>
    rw [List.pairwise_cons] at hs
    obtain ⟨A, B, C, rfl, hA, hB, hC, hf⟩ := ih hs.2
    by_cases h1 : a < lo
    · refine ⟨a :: A, B, C, rfl, ?_, hB, hC, ?_⟩
      · intro b hb
        rcases List.mem_cons.1 hb with rfl | hb
        · exact h1
        · exact hA b hb
      · rw [List.filter_cons_of_neg (by simp; intro h2; linarith)]
        exact hf
    · have hA0 : A = [] := by
        rcases A with - | ⟨b, A⟩
        · rfl
        · have h2 := hA b (by simp)
          have h3 := hs.1 b (by simp)
          linarith
      subst hA0
      by_cases h2 : a ≤ hi
      · refine ⟨[], a :: B, C, rfl, by simp, ?_, hC, ?_⟩
        · intro b hb
          rcases List.mem_cons.1 hb with rfl | hb
          · exact ⟨not_lt.1 h1, h2⟩
          · exact hB b hb
        · rw [List.filter_cons_of_pos (by simp [not_lt.1 h1, h2]), ← hf]
      · have hB0 : B = [] := by
          rcases B with - | ⟨b, B⟩
          · rfl
          · have h3 := hB b (by simp)
            have h4 := hs.1 b (by simp)
            linarith
        subst hB0
        refine ⟨[], [], a :: C, rfl, by simp, by simp, ?_, ?_⟩
        · intro b hb
          rcases List.mem_cons.1 hb with rfl | hb
          · exact not_le.1 h2
          · exact hC b hb
        · rw [List.filter_cons_of_neg (by simp; intro _; exact not_le.1 h2)]
          exact hf

theorem split_getElem (A B C : List ℝ) (i : ℕ) (hi : i < (A ++ B ++ C).length) :
    (i < A.length → (A ++ B ++ C)[i] ∈ A) ∧ (A.length ≤ i → i < A.length + B.length → (A ++ B ++ C)[i] ∈ B) ∧
      (A.length + B.length ≤ i → (A ++ B ++ C)[i] ∈ C) := by
  refine ⟨fun h => ?_, fun h1 h2 => ?_, fun h => ?_⟩
  · rw [List.getElem_append_left (by simp; omega), List.getElem_append_left h]
    exact List.getElem_mem _
  · rw [List.getElem_append_left (by simp; omega), List.getElem_append_right h1]
    exact List.getElem_mem _
  · rw [List.getElem_append_right (by simp; omega)]
    exact List.getElem_mem _

theorem trim_loop (l A B C : List ℝ) (lo hi : ℝ) (hl : l = A ++ B ++ C) (hA : ∀ a ∈ A, a < lo)
    (hB : ∀ b ∈ B, lo ≤ b ∧ b ≤ hi) (hC : ∀ c ∈ C, hi < c) :
    forN l.length (fun i (s : ℕ × ℕ) => do
      let a ← rd (l.map XR.fin) i
      let count := if CReal.ge a (XR.fin lo) && CReal.le a (XR.fin hi) then s.2 + 1 else s.2
      return (if count = 1 then i else s.1, count)) (0, 0) =
    ok (if B.length = 0 then 0 else if B.length = 1 then l.length - 1 else A.length, B.length) := by
  have key := forN_eq (n := l.length) (s := ((0, 0) : ℕ × ℕ)) (f := fun i (s : ℕ × ℕ) => do
      let a ← rd (l.map XR.fin) i
      let count := if CReal.ge a (XR.fin lo) && CReal.le a (XR.fin hi) then s.2 + 1 else s.2
      return (if count = 1 then i else s.1, count))
    (fun i => (if i ≤ A.length ∨ B.length = 0 then 0 else if B.length = 1 then i - 1 else A.length, min (i - A.length) B.length)) (by simp) ?_
  · rw [key]
    have hlen : l.length = A.length + B.length + C.length := by rw [hl]; simp; omega
    congr 2
    · by_cases h0 : B.length = 0
      · simp [h0]
      · rw [if_neg (by omega), if_neg h0]
    · omega
  · intro i hi'
    have hg := split_getElem A B C i (by rw [← hl]; exact hi')
    have hcond : (CReal.ge (XR.fin l[i]) (XR.fin lo) && CReal.le (XR.fin l[i]) (XR.fin hi)) = true ↔
        A.length ≤ i ∧ i < A.length + B.length := by
      rw [Bool.and_eq_true, XR.fin_ge, XR.fin_le]
      simp only [← hl] at hg
      constructor
      · rintro ⟨h1, h2⟩
        by_contra h
        rcases Nat.lt_or_ge i A.length with h3 | h3
        · have := hA _ (hg.1 h3); linarith
        · have := hC _ (hg.2.2 (by omega)); linarith
      · rintro ⟨h1, h2⟩
        exact hB _ (hg.2.1 h1 h2)
    dsimp only
    rw [rd_lt (by simpa using hi'), ok_bind, pure_eq, List.getElem_map]
    congr 1
    by_cases h : A.length ≤ i ∧ i < A.length + B.length
    · rw [if_pos (hcond.2 h)]
      refine Prod.ext ?_ ?_
      · dsimp only
        split_ifs <;> omega
      · dsimp only
        omega
    · rw [if_neg (fun h' => h (hcond.1 h'))]
      refine Prod.ext ?_ ?_
      · dsimp only
        split_ifs <;> omega
      · dsimp only
        omega

theorem sum_filter_sorted (x : Fin n → ℝ) (lo hi : ℝ) :
    ((sortedOf x).filter fun b => decide (lo ≤ b ∧ b ≤ hi)).sum = ∑ i with lo ≤ x i ∧ x i ≤ hi, x i := by
  have := ((sortedOf_perm x).filter fun b => decide (lo ≤ b ∧ b ≤ hi)).sum_eq
  rw [this, Finset.sum_filter]
  have : ∀ l : List ℝ, (l.filter fun b => decide (lo ≤ b ∧ b ≤ hi)).sum = (l.map fun b => if lo ≤ b ∧ b ≤ hi then b else 0).sum := by
    intro l
    induction l with
    | nil => rfl
    | cons a l ih =>
      by_cases h : lo ≤ a ∧ a ≤ hi
      · rw [List.filter_cons_of_pos (by simp [h]), List.map_cons, List.sum_cons, List.sum_cons, ih, if_pos h]
      · rw [List.filter_cons_of_neg (by simpa using h), List.map_cons, List.sum_cons, ih, if_neg h, zero_add]
  rw [this, List.map_ofFn, List.sum_ofFn]
  rfl

theorem length_filter_sorted (x : Fin n → ℝ) (lo hi : ℝ) :
    ((sortedOf x).filter fun b => decide (lo ≤ b ∧ b ≤ hi)).length = (Finset.univ.filter fun i => lo ≤ x i ∧ x i ≤ hi).card := by
  rw [← List.countP_eq_length_filter, card_sorted x (fun b => lo ≤ b ∧ b ≤ hi)]

theorem vec_of_list (B : List ℝ) (t : List XR) : (⟨B.length, B.map XR.fin ++ t⟩ : Vec XR) = vec (fun i : Fin B.length => B[i]) t := by
  refine vec_ext _ _ _ ?_
  apply List.ext_getElem <;> simp

theorem staMean_list (B : List ℝ) (t : List XR) (m : XR) (hB : 1 ≤ B.length) :
    staMean ⟨B.length, B.map XR.fin ++ t⟩ m = ok (0, XR.fin (B.sum / B.length)) := by
  rw [vec_of_list, staMean_vec _ _ _ hB, meanOf]
  congr 4
  exact Fin.sum_univ_getElem B

/-- C42: complete description of the trimmed mean for 0 < p < 50 (and for p = 50) in terms of the two percentiles `lo` and `hi` the code
computes. With two or more data in `lo .. hi` it is their mean. With exactly one it is the largest of all data, and
with none the size of a variable length array is zero. -/
theorem sta_trim_mean_exact (fuel : ℕ) (extra : List XR) (junk : ℕ → XR) (x : Fin n → ℝ) (t : List XR) (p : ℝ) (m : XR) (hn : 1 ≤ n)
    (hp0 : 0 < p) (hp1 : p ≤ 50) (h : SortOK fuel extra x) (hn2 : n < 2147483648) :
    let lo := percVal (sortedOf x) p
    let hi := percVal (sortedOf x) (100 - p)
    let c := (Finset.univ.filter fun i => lo ≤ x i ∧ x i ≤ hi).card
    staTrimMean fuel extra junk (vec x t) (XR.fin p) m =
      if c = 0 then ub
      else if c = 1 then ok (0, XR.fin ((sortedOf x).getD (n - 1) 0))
      else ok (0, XR.fin ((∑ i with lo ≤ x i ∧ x i ≤ hi, x i) / c)) := by
  intro lo hi c
  have hlohi : lo ≤ hi := percVal_mono x p (100 - p) hn hp0 (by linarith) (by linarith)
  have hl := sortedOf_length x
  obtain ⟨A, B, C, hABC, hA, hB, hC, hf⟩ := sorted_split (sortedOf x) (sortedOf_pairwise x) lo hi
  have hBc : B.length = c := by rw [hf, length_filter_sorted]
  have hsum : B.sum = ∑ i with lo ≤ x i ∧ x i ≤ hi, x i := by rw [hf, sum_filter_sorted]
  have e100 : (lit 100 : XR) = XR.fin 100 := by rw [XR.lit_eq]; norm_num
  have hlen : A.length + B.length + C.length = n := by rw [← hl, hABC]; simp; omega
  have hmem := h.mem
  have hsz : n + n < SIZE_MOD := by rw [SIZE_MOD_eq]; omega
  rw [staTrimMean, if_neg, if_neg (by rw [vec_sz]; omega), e100,
    sta_percentile_value fuel extra junk x t p (junk 0) hn hp0 (by linarith) h hn2, ok_bind]
  · dsimp only
    rw [XR.fin_sub, sta_percentile_value fuel extra junk x t (100 - p) (junk 1) hn (by linarith) (by linarith) h hn2, ok_bind]
    dsimp only
    rw [vec_sz, vecUninit_eq, vecInit_vec, ok_bind]
    dsimp only
    rw [vec_eq_vecOf (0 : Fin n → ℝ), vecSort_sorted _ _ _ _ _ hn h, ok_bind]
    dsimp only
    have hloop := trim_loop (sortedOf x) A B C lo hi hABC hA hB hC
    rw [hl] at hloop
    rw [hloop, ok_bind]
    dsimp only
    rw [hBc]
    by_cases h0 : c = 0
    · rw [if_pos h0, if_pos h0]
    rw [if_neg h0, if_neg h0, if_neg h0]
    have hw : (⟨n, (sortedOf x).map XR.fin⟩ : Vec XR).WF := by simp [Vec.WF, hl]
    rw [vec_get_subset_correct _ _ _ _ hw (by rw [vecUninit_eq]; exact vecOf_wf _ _) (by
      rw [vecUninit_eq, vecOf, List.length_map, hl]; simp [arrOf]; omega) (by omega)]
    by_cases h1 : c = 1
    · rw [if_pos h1, if_pos h1]
      dsimp only
      rw [if_neg (by rw [SIZE_MOD_eq] at *; simp [Vec.uninit]; omega), ok_bind, h1, show n - (n - 1) = 1 by omega, Nat.min_self]
      have : (List.take 1 (List.drop (n - 1) ((sortedOf x).map XR.fin))) = [(sortedOf x).getD (n - 1) 0].map XR.fin := by
        rw [List.drop_eq_getElem_cons (by rw [List.length_map, hl]; omega), List.take_succ_cons, List.take_zero, List.getElem_map,
          List.getD_eq_getElem _ _ (by omega)]
        rfl
      dsimp only
      rw [this]
      have := staMean_list [(sortedOf x).getD (n - 1) 0] ((Vec.uninit junk 1).data.drop 1) (lit 0) (by simp)
      simp only [List.length_singleton, List.sum_singleton, Nat.cast_one, div_one] at this
      exact this
    · rw [if_neg h1, if_neg h1]
      dsimp only
      rw [if_neg (by rw [SIZE_MOD_eq] at *; simp [Vec.uninit]; omega), ok_bind, Nat.min_eq_left (by omega)]
      have : (List.take c (List.drop A.length ((sortedOf x).map XR.fin))) = B.map XR.fin := by
        rw [hABC, List.map_append, List.map_append, List.append_assoc, List.drop_left' (by simp), List.take_left' (by simpa using hBc)]
      dsimp only
      rw [this, ← hBc, staMean_list B _ _ (by omega), hsum]
  · rw [Bool.or_eq_true, XR.lit_eq, XR.lit_eq, XR.fin_lt, XR.fin_gt]
    push Not
    norm_num
    exact ⟨hp1, hp0.le⟩

/-- C42, part: if two or more data lie between the `p`-th and the `100 - p`-th percentile, the trimmed mean is the mean of those data
and lies between two of them. Missing: see `sta_trim_mean_wrong`, `sta_trim_mean_empty` and `sta_trim_mean_zero`. -/
theorem sta_trim_mean_partial (fuel : ℕ) (extra : List XR) (junk : ℕ → XR) (x : Fin n → ℝ) (t : List XR) (p : ℝ) (m : XR) (hn : 1 ≤ n)
    (hp0 : 0 < p) (hp1 : p ≤ 50) (h : SortOK fuel extra x) (hn2 : n < 2147483648) (lo hi : ℝ)
    (hlo : staPercentile fuel extra junk (vec x t) (XR.fin p) m = ok (0, XR.fin lo))
    (hhi : staPercentile fuel extra junk (vec x t) (XR.fin (100 - p)) m = ok (0, XR.fin hi))
    (hc : 2 ≤ (Finset.univ.filter fun i => lo ≤ x i ∧ x i ≤ hi).card) :
    ∃ a, staTrimMean fuel extra junk (vec x t) (XR.fin p) m = ok (0, XR.fin a) ∧
      a = (∑ i with lo ≤ x i ∧ x i ≤ hi, x i) / (Finset.univ.filter fun i => lo ≤ x i ∧ x i ≤ hi).card ∧ lo ≤ a ∧ a ≤ hi := by
  have hlo' : percVal (sortedOf x) p = lo := by
    rw [sta_percentile_value fuel extra junk x t p m hn hp0 (by linarith) h hn2] at hlo
    simpa using hlo
  have hhi' : percVal (sortedOf x) (100 - p) = hi := by
    rw [sta_percentile_value fuel extra junk x t (100 - p) m hn (by linarith) (by linarith) h hn2] at hhi
    simpa using hhi
  have := sta_trim_mean_exact fuel extra junk x t p m hn hp0 hp1 h hn2
  dsimp only at this
  rw [hlo', hhi', if_neg (by omega), if_neg (by omega)] at this
  have hpos : (0 : ℝ) < ((Finset.univ.filter fun i => lo ≤ x i ∧ x i ≤ hi).card : ℝ) := by
    have : 0 < (Finset.univ.filter fun i => lo ≤ x i ∧ x i ≤ hi).card := by omega
    exact_mod_cast this
  refine ⟨_, this, rfl, ?_, ?_⟩
  · rw [le_div_iff₀ hpos]
    have := Finset.card_nsmul_le_sum (Finset.univ.filter fun i => lo ≤ x i ∧ x i ≤ hi) x lo (fun i hi => (Finset.mem_filter.1 hi).2.1)
    rw [nsmul_eq_mul] at this
    linarith
  · rw [div_le_iff₀ hpos]
    have := Finset.sum_le_card_nsmul (Finset.univ.filter fun i => lo ≤ x i ∧ x i ≤ hi) x hi (fun i hi => (Finset.mem_filter.1 hi).2.2)
    rw [nsmul_eq_mul] at this
    linarith

/-- C42: for p = 0 the trimmed mean reads outside its sorted copy. -/
theorem sta_trim_mean_zero (fuel : ℕ) (extra : List XR) (junk : ℕ → XR) (x : Fin n → ℝ) (t : List XR) (m : XR) (hn : 1 ≤ n)
    (h : SortOK fuel extra x) (hn2 : n < 2147483648) : staTrimMean fuel extra junk (vec x t) (XR.fin 0) m = ub := by
  rw [staTrimMean, if_neg, if_neg (by rw [vec_sz]; omega), sta_percentile_zero fuel extra junk x t _ hn h hn2]
  · rfl
  · rw [Bool.or_eq_true, XR.lit_eq, XR.lit_eq, XR.fin_lt, XR.fin_gt]
    push Not
    norm_num

theorem sorted_unique (x : Fin n → ℝ) (l : List ℝ) (hp : l.Perm (List.ofFn x)) (hs : l.Pairwise (· ≤ ·)) : sortedOf x = l :=
  ((sortedOf_perm x).trans hp.symm).eq_of_pairwise (fun _ _ _ _ h1 h2 => le_antisymm h1 h2) (sortedOf_pairwise x) hs

/-- C42 fails: the 45 percent trimmed mean of 1, 1, 2, 3, 3 is 3. (Only the 2 is left, but its position is forgotten.) -/
theorem sta_trim_mean_wrong (junk : ℕ → XR) (t : List XR) (m : XR) :
    SortOK (n := 5) 10 [] ![1, 1, 2, 3, 3] ∧
    staTrimMean 10 [] junk (vec ![1, 1, 2, 3, 3] t) (XR.fin 45) m = ok (0, XR.fin 3) ∧
    staPercentile 10 [] junk (vec ![1, 1, 2, 3, 3] t) (XR.fin 45) m = ok (0, XR.fin 2) ∧
    staPercentile 10 [] junk (vec ![1, 1, 2, 3, 3] t) (XR.fin 55) m = ok (0, XR.fin 2) := by
  have hok : SortOK (n := 5) 10 [] ![1, 1, 2, 3, 3] := by
    refine ⟨⟨?_, ?_⟩, Or.inr fun h => by simpa using @h 0 1 (by simp), by norm_num, by rw [SIZE_MOD_eq]; norm_num⟩
    · simp only [List.ofFn_succ, List.ofFn_zero, Matrix.cons_val_zero, Matrix.cons_val_succ]
      intro a ha b hb
      simp only [List.mem_cons, List.not_mem_nil, or_false] at ha hb
      rcases ha with rfl | rfl | rfl | rfl | rfl <;> rcases hb with rfl | rfl | rfl | rfl | rfl <;> norm_num
    · simp only [List.ofFn_succ, List.ofFn_zero, Matrix.cons_val_zero, Matrix.cons_val_succ]
      intro a ha
      simp only [List.mem_cons, List.not_mem_nil, or_false] at ha
      rcases ha with rfl | rfl | rfl | rfl | rfl <;> norm_num
  have hsort : sortedOf (![1, 1, 2, 3, 3] : Fin 5 → ℝ) = [1, 1, 2, 3, 3] := by
    refine sorted_unique _ _ ?_ ?_
    · simp [List.ofFn_succ]
    · simp [List.pairwise_cons]; norm_num
  have f1 : ⌊(45 : ℝ) * (5 : ℕ) / 100⌋₊ = 2 := by
    rw [Nat.floor_eq_iff (by positivity)]; norm_num
  have f2 : ⌊(55 : ℝ) * (5 : ℕ) / 100⌋₊ = 2 := by
    rw [Nat.floor_eq_iff (by positivity)]; norm_num
  have p1 : percVal (sortedOf (![1, 1, 2, 3, 3] : Fin 5 → ℝ)) 45 = 2 := by
    rw [percVal, sortedOf_length, f1, if_neg (by norm_num), hsort]
    rfl
  have p2 : percVal (sortedOf (![1, 1, 2, 3, 3] : Fin 5 → ℝ)) 55 = 2 := by
    rw [percVal, sortedOf_length, f2, if_neg (by norm_num), hsort]
    rfl
  refine ⟨hok, ?_, ?_, ?_⟩
  · have := sta_trim_mean_exact 10 [] junk (![1, 1, 2, 3, 3] : Fin 5 → ℝ) t 45 m (by norm_num) (by norm_num) (by norm_num) hok (by norm_num)
    dsimp only at this
    rw [show (100 : ℝ) - 45 = 55 by norm_num, p1, p2] at this
    have hc : (Finset.univ.filter fun i : Fin 5 => 2 ≤ (![1, 1, 2, 3, 3] : Fin 5 → ℝ) i ∧ (![1, 1, 2, 3, 3] : Fin 5 → ℝ) i ≤ 2) = {2} := by
      ext i
      fin_cases i <;> norm_num [Fin.ext_iff]
    rw [hc, Finset.card_singleton, if_neg (by norm_num), if_pos rfl, hsort] at this
    exact this
  · rw [sta_percentile_value _ _ _ _ _ _ _ (by norm_num) (by norm_num) (by norm_num) hok (by norm_num), p1]
  · rw [sta_percentile_value _ _ _ _ _ _ _ (by norm_num) (by norm_num) (by norm_num) hok (by norm_num), p2]

/-- C42 fails for p = 50 and an even number of data with distinct middle elements: the median lies between them, no element is left and
the size of a variable length array is zero. -/
theorem sta_trim_mean_empty (junk : ℕ → XR) (t : List XR) (m : XR) :
    SortOK (n := 4) 8 [] ![1, 1, 2, 2] ∧ staTrimMean 8 [] junk (vec ![1, 1, 2, 2] t) (XR.fin 50) m = ub := by
  have hok : SortOK (n := 4) 8 [] ![1, 1, 2, 2] := by
    refine ⟨⟨?_, ?_⟩, Or.inr fun h => by simpa using @h 0 1 (by simp), by norm_num, by rw [SIZE_MOD_eq]; norm_num⟩
    · simp only [List.ofFn_succ, List.ofFn_zero, Matrix.cons_val_zero, Matrix.cons_val_succ]
      intro a ha b hb
      simp only [List.mem_cons, List.not_mem_nil, or_false] at ha hb
      rcases ha with rfl | rfl | rfl | rfl <;> rcases hb with rfl | rfl | rfl | rfl <;> norm_num
    · simp only [List.ofFn_succ, List.ofFn_zero, Matrix.cons_val_zero, Matrix.cons_val_succ]
      intro a ha
      simp only [List.mem_cons, List.not_mem_nil, or_false] at ha
      rcases ha with rfl | rfl | rfl | rfl <;> norm_num
  have hsort : sortedOf (![1, 1, 2, 2] : Fin 4 → ℝ) = [1, 1, 2, 2] := by
    refine sorted_unique _ _ ?_ ?_
    · simp [List.ofFn_succ]
    · simp [List.pairwise_cons]
  have p1 : percVal (sortedOf (![1, 1, 2, 2] : Fin 4 → ℝ)) 50 = 3 / 2 := by
    have := percVal_median_even (n := 1) (![1, 1, 2, 2] : Fin 4 → ℝ)
    rw [this, hsort]
    norm_num
  refine ⟨hok, ?_⟩
  have := sta_trim_mean_exact 8 [] junk (![1, 1, 2, 2] : Fin 4 → ℝ) t 50 m (by norm_num) (by norm_num) (by norm_num) hok (by norm_num)
  dsimp only at this
  rw [show (100 : ℝ) - 50 = 50 by norm_num, p1] at this
  rw [this, if_pos]
  rw [Finset.card_eq_zero, Finset.filter_eq_empty_iff]
  intro i _
  fin_cases i <;> norm_num

/-! ## C83 -/

/-- C83, part: the data range is the difference of two of the data, the largest and the smallest. Missing: data that `zsl_vec_sort` does
not sort, see C12. -/
theorem sta_data_range_partial (fuel : ℕ) (extra : List XR) (junk : ℕ → XR) (x : Fin n → ℝ) (t : List XR) (hn : 1 ≤ n)
    (h : SortOK fuel extra x) :
    ∃ i j, staDataRange fuel extra junk (vec x t) = ok (0, XR.fin (x j - x i)) ∧ ∀ k, x i ≤ x k ∧ x k ≤ x j := by
  have hl := sortedOf_length x
  have hs := sortedOf_pairwise x
  obtain ⟨i, hi⟩ := getD_sorted_mem x 0 (by omega)
  obtain ⟨j, hj⟩ := getD_sorted_mem x (n - 1) (by omega)
  refine ⟨i, j, ?_, fun k => ?_⟩
  · rw [staDataRange, if_neg (by rw [vec_sz]; omega), vec_sz, vecUninit_eq, vecSort_sorted _ _ _ _ _ hn h, ok_bind]
    dsimp only
    have e : ∀ k, k < n → rd ((sortedOf x).map XR.fin) k = ok (XR.fin ((sortedOf x).getD k 0)) := by
      intro k hk
      have := rdI_map (sortedOf x) k (by omega)
      rwa [rdI, if_pos (by omega), Int.toNat_natCast] at this
    rw [e _ (by omega), ok_bind, e _ (by omega), ok_bind, hi, hj]
    rfl
  · have : x k ∈ sortedOf x := (sortedOf_perm x).mem_iff.2 (List.mem_ofFn.2 ⟨k, rfl⟩)
    obtain ⟨a, ha, he⟩ := List.mem_iff_getElem.1 this
    rw [← List.getD_eq_getElem _ 0 ha] at he
    rw [← hi, ← hj, ← he]
    exact ⟨getD_mono _ hs _ _ (by omega) ha, getD_mono _ hs _ _ (by omega) (by omega)⟩

/-- C83: the mean absolute deviation. -/
theorem sta_mean_abs_dev_correct (junk : ℕ → XR) (x : Fin n → ℝ) (t : List XR) (m : XR) (hn : 1 ≤ n) :
    staMeanAbsDev junk (vec x t) m = ok (0, XR.fin ((∑ i, |x i - meanOf x|) / n)) := by
  have hn0 : (n : ℝ) ≠ 0 := by positivity
  rw [staMeanAbsDev, if_neg (by rw [vec_sz]; omega), vec_sz, vecUninit_eq, staDemean_vec _ _ _ _ _ hn, ok_bind]
  dsimp only
  rw [XR.lit_eq, forN_sum (fun i => |x i - meanOf x|) (fun i t' => by rw [vec_rd, ok_bind, pure_eq, XR.fin_abs, XR.fin_add]), ok_bind,
    XR.ofNat_eq, XR.fin_div hn0]
  simp

/-- C83: it is non-negative, zero exactly for constant data, and unchanged by shifts. -/
theorem sta_mean_abs_dev_laws (junk : ℕ → XR) (x : Fin n → ℝ) (t : List XR) (m : XR) (c : ℝ) (hn : 1 ≤ n) :
    ∃ a, staMeanAbsDev junk (vec x t) m = ok (0, XR.fin a) ∧ staMeanAbsDev junk (vec (fun i => x i + c) t) m = ok (0, XR.fin a) ∧ 0 ≤ a ∧
      (a = 0 ↔ ∀ i j, x i = x j) := by
  have hn0 : (n : ℝ) ≠ 0 := by positivity
  refine ⟨_, sta_mean_abs_dev_correct junk x t m hn, ?_, div_nonneg (Finset.sum_nonneg fun i _ => abs_nonneg _) (by positivity), ?_⟩
  · rw [sta_mean_abs_dev_correct junk _ t m hn]
    have := meanOf_affine x 1 c hn
    simp only [one_mul] at this
    simp only [this, add_sub_add_right_eq_sub]
  · rw [div_eq_zero_iff, Finset.sum_eq_zero_iff_of_nonneg fun i _ => abs_nonneg _]
    constructor
    · rintro (h | h)
      · intro i j
        have h1 := sub_eq_zero.1 (abs_eq_zero.1 (h i (Finset.mem_univ i)))
        have h2 := sub_eq_zero.1 (abs_eq_zero.1 (h j (Finset.mem_univ j)))
        rw [h1, h2]
      · exact absurd h hn0
    · intro h
      left
      intro i _
      have hm : meanOf x = x i := by
        rw [meanOf, Finset.sum_congr rfl fun j _ => h j i, Finset.sum_const, Finset.card_univ, Fintype.card_fin, nsmul_eq_mul]
        field_simp
      rw [hm, sub_self, abs_zero]

/-- C83: no data. -/
theorem sta_mean_abs_dev_empty {R : Type} [CReal R] (junk : ℕ → R) (v : Vec R) (m : R) (h : v.sz = 0) :
    staMeanAbsDev junk v m = ok (-EINVAL, m) := by
  rw [staMeanAbsDev, if_pos h]

/-- C83, part: the median absolute deviation is the median of the distances from the median. Missing: data (or distances) that
`zsl_vec_sort` does not sort, see C12. -/
theorem sta_median_abs_dev_partial (fuel : ℕ) (extra : List XR) (junk : ℕ → XR) (x : Fin n → ℝ) (t : List XR) (m : XR) (hn : 1 ≤ n)
    (h : SortOK fuel extra x) (hn2 : n < 2147483648) (med : ℝ)
    (hmed : staMedian fuel extra junk (vec x t) m = ok (0, XR.fin med)) (hd : SortOK fuel extra fun i => |x i - med|) :
    ∃ a, staMedianAbsDev fuel extra junk (vec x t) m = ok (0, XR.fin a) ∧
      staMedian fuel extra junk (vec (fun i => |x i - med|) []) m = ok (0, XR.fin a) ∧ 0 ≤ a := by
  obtain ⟨v, hv, hv', -⟩ := sta_median_partial fuel extra junk x t m hn h hn2
  obtain ⟨w, hw, hw', -⟩ := sta_median_partial fuel extra junk x t (junk 0) hn h hn2
  have e1 := sta_percentile_value fuel extra junk x t 50 m hn (by norm_num) (by norm_num) h hn2
  have e2 := sta_percentile_value fuel extra junk x t 50 (junk 0) hn (by norm_num) (by norm_num) h hn2
  have hwm : w = med := by
    rw [hmed] at hv
    rw [hv'] at e1
    rw [hw'] at e2
    simp at hv e1 e2
    rw [hv, e1, e2]
  obtain ⟨a, ha, ha', hperc⟩ := sta_median_partial fuel extra junk (fun i => |x i - med|) [] m hn hd hn2
  refine ⟨a, ?_, ha, ?_⟩
  · rw [staMedianAbsDev, if_neg (by rw [vec_sz]; omega), hw, ok_bind]
    dsimp only
    rw [hwm, vec_sz, junkArr_eq]
    rw [forN_write (List.ofFn fun i => XR.fin |x i - med|) (by simp) (by simp [arrOf]), ok_bind]
    · have hdrop : (arrOf (fun i : Fin n => junk i) []).drop n = [] := vecOf_drop _ _
      rw [hdrop, vec_ext _ _ _ rfl, ha]
      rfl
    · rintro i hi t' -
      rw [show rd (vec x t).data i = ok (XR.fin (x ⟨i, hi⟩)) from vec_rd x t ⟨i, hi⟩, ok_bind, XR.fin_sub, XR.fin_abs]
      simp
  · obtain ⟨b, hb, -, i, -, h1, -⟩ := sta_percentile_partial fuel extra junk (fun i => |x i - med|) [] 50 m hn (by norm_num) (by norm_num) hd hn2
    rw [ha'] at hb
    simp at hb
    rw [hb]
    exact (abs_nonneg _).trans h1

end Verif
