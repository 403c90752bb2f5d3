import Verif.Props.Stat6

/-!
# Statistics: mode (C107)
-/

namespace Verif

open Out

variable {n : ℕ}

/-- `a` is a mode of the data: it occurs, and no value occurs more often. -/
def IsMode (x : Fin n → ℝ) (a : ℝ) : Prop :=
  (∃ i, x i = a) ∧ ∀ b, Nat.card {i // x i = b} ≤ Nat.card {i // x i = a}

/-- Number of data within 1e-7 of `a`. -/
noncomputable def nearCount (xs : List ℝ) (a : ℝ) : ℕ := xs.countP fun b => decide (|b - a| < 1e-7)

/-- Largest number of data within 1e-7 of a datum. -/
noncomputable def topCount (xs ys : List ℝ) : ℕ := (ys.map (nearCount xs)).foldl max 0

/-- The data with the largest count, in the order of the data and with repetitions. -/
noncomputable def topList (xs : List ℝ) : List ℝ := xs.filter fun a => decide (nearCount xs a = topCount xs xs)

theorem vecContains_eps (ls : List ℝ) (rest : List XR) (m : ℕ) (hm : ls.length = m) (a : ℝ) :
    vecContains ⟨m, ls.map XR.fin ++ rest⟩ (XR.fin a) (lit 1e-7) = ok (nearCount ls a) := by
  have hl : (lit 1e-7 : XR) = XR.fin 1e-7 := by rw [XR.lit_eq]; norm_num
  rw [vec_contains_correct _ _ _ (by simp [Vec.WF, hm]), hl, Vec.vals,
    List.take_append_of_le_length (by simp [hm]), List.take_of_length_le (by simp [hm]),
    List.countP_map, nearCount]
  congr 2
  funext b
  rw [Bool.eq_iff_iff]
  simp only [Function.comp, XR.fin_sub, XR.fin_neg, Bool.and_eq_true, XR.fin_lt,
    decide_eq_true_eq, abs_lt]
  constructor <;> intro h <;> constructor <;> linarith [h.1, h.2]

theorem topCount_ge (xs ys : List ℝ) : ∀ a ∈ ys, nearCount xs a ≤ topCount xs ys := by
  induction ys using List.reverseRecOn with
  | nil => simp
  | append_singleton ys b ih =>
    intro a ha
    have : topCount xs (ys ++ [b]) = max (topCount xs ys) (nearCount xs b) := by simp [topCount, List.foldl_append]
    rw [this]
    rcases List.mem_append.1 ha with h | h
    · exact (ih a h).trans (le_max_left _ _)
    · rw [List.mem_singleton] at h
      subst h
      exact le_max_right _ _

theorem topCount_mem (xs ys : List ℝ) (h : ys ≠ []) : ∃ a ∈ ys, nearCount xs a = topCount xs ys := by
  induction ys using List.reverseRecOn with
  | nil => exact absurd rfl h
  | append_singleton ys b ih =>
    have e : topCount xs (ys ++ [b]) = max (topCount xs ys) (nearCount xs b) := by simp [topCount, List.foldl_append]
    rw [e]
    rcases le_total (topCount xs ys) (nearCount xs b) with hle | hle
    · exact ⟨b, by simp, by rw [max_eq_right hle]⟩
    · rw [max_eq_left hle]
      by_cases hy : ys = []
      · subst hy
        refine ⟨b, by simp, ?_⟩
        have : topCount xs [] = 0 := rfl
        omega
      · obtain ⟨a, ha, h⟩ := ih hy
        exact ⟨a, List.mem_append_left _ ha, h⟩

/-- First loop of `zsl_sta_mode`. -/
theorem modeLoop1 (xs : List ℝ) (rest : List XR) (u : List XR) (hu : u.length = xs.length) :
    forN xs.length (fun i (s : List XR × Nat) => do
      let a ← rd (xs.map XR.fin ++ rest) i
      let count ← vecContains ⟨xs.length, xs.map XR.fin ++ rest⟩ a (lit 1e-7)
      let u ← wr s.1 i (CReal.ofNat count)
      return (u, if count > s.2 then count else s.2)) (u, 0) =
    ok (xs.map (fun a => XR.fin (nearCount xs a : ℝ)), topCount xs xs) := by
  have key := forN_eq (n := xs.length) (s := (u, 0)) (f := fun i (s : List XR × Nat) => do
      let a ← rd (xs.map XR.fin ++ rest) i
      let count ← vecContains ⟨xs.length, xs.map XR.fin ++ rest⟩ a (lit 1e-7)
      let u ← wr s.1 i (CReal.ofNat count)
      return (u, if count > s.2 then count else s.2))
    (fun i => ((xs.take i).map (fun a => XR.fin (nearCount xs a : ℝ)) ++ u.drop i, topCount xs (xs.take i))) (by simp [topCount]) ?_
  · rw [key, List.take_length, ← hu, List.drop_length, List.append_nil]
  · intro i hi
    rw [rd_of (x := XR.fin xs[i]) (by rw [List.getElem?_append_left (by simpa using hi)]; simp [hi]), ok_bind,
      vecContains_eps _ _ _ rfl, ok_bind, wr_lt _ (by simp; omega), ok_bind, pure_eq]
    have ht : xs.take (i + 1) = xs.take i ++ [xs[i]] := List.take_succ_eq_append_getElem hi
    rw [ht]
    congr 2
    · rw [List.set_append_right _ _ (by simp), List.length_map, List.length_take, min_eq_left hi.le, Nat.sub_self,
        List.drop_eq_getElem_cons (by omega), List.set_cons_zero, XR.ofNat_eq, List.map_append, List.append_assoc]
      rfl
    · have e : topCount xs (xs.take i ++ [xs[i]]) = max (topCount xs (xs.take i)) (nearCount xs xs[i]) := by
        rw [topCount, List.map_append, List.foldl_append]
        rfl
      rw [e]
      split <;> omega

/-- Second loop of `zsl_sta_mode`. -/
theorem modeLoop2 (xs : List ℝ) (rest : List XR) (w : List XR) (hw : w.length = xs.length) :
    forN xs.length (fun i (s : List XR × Nat) => do
      let c ← rd (xs.map (fun a => XR.fin (nearCount xs a : ℝ))) i
      if CReal.eq c (CReal.ofNat (topCount xs xs)) then do
        let a ← rd (xs.map XR.fin ++ rest) i
        let wt ← wr s.1 s.2 a
        return (wt, s.2 + 1)
      else return s) (w, 0) =
    ok ((topList xs).map XR.fin ++ w.drop (topList xs).length, (topList xs).length) := by
  have key := forN_eq (n := xs.length) (s := (w, 0)) (f := fun i (s : List XR × Nat) => do
      let c ← rd (xs.map (fun a => XR.fin (nearCount xs a : ℝ))) i
      if CReal.eq c (CReal.ofNat (topCount xs xs)) then do
        let a ← rd (xs.map XR.fin ++ rest) i
        let wt ← wr s.1 s.2 a
        return (wt, s.2 + 1)
      else return s)
    (fun i => let f := (xs.take i).filter fun a => decide (nearCount xs a = topCount xs xs)
      (f.map XR.fin ++ w.drop f.length, f.length)) (by simp) ?_
  · rw [key]
    dsimp only
    rw [List.take_length]
    rfl
  · intro i hi
    dsimp only
    have ht : xs.take (i + 1) = xs.take i ++ [xs[i]] := List.take_succ_eq_append_getElem hi
    rw [ht, List.filter_append]
    have hfl : ((xs.take i).filter fun a => decide (nearCount xs a = topCount xs xs)).length ≤ i :=
      (List.length_filter_le _ _).trans (by simp)
    generalize ((xs.take i).filter fun a => decide (nearCount xs a = topCount xs xs)) = f at hfl ⊢
    rw [rd_of (x := XR.fin (nearCount xs xs[i] : ℝ)) (by simp [hi]), ok_bind, XR.ofNat_eq]
    by_cases h : nearCount xs xs[i] = topCount xs xs
    · rw [if_pos (by rw [XR.fin_eq, h]), rd_of (x := XR.fin xs[i]) (by rw [List.getElem?_append_left (by simpa using hi)]; simp [hi]),
        ok_bind, wr_lt _ (by simp; omega), ok_bind, pure_eq]
      have hf : [xs[i]].filter (fun a => decide (nearCount xs a = topCount xs xs)) = [xs[i]] := by simp [h]
      rw [hf, List.set_append_right _ _ (by simp), List.length_map, Nat.sub_self, List.drop_eq_getElem_cons (by omega), List.set_cons_zero]
      simp
    · rw [if_neg (by rw [XR.fin_eq]; exact_mod_cast h), pure_eq]
      have hf : [xs[i]].filter (fun a => decide (nearCount xs a = topCount xs xs)) = [] := by simp [h]
      rw [hf, List.append_nil]

/-- Third loop of `zsl_sta_mode`: like the de-duplication in `zsl_vec_sort`, but the buffer may be larger than the list. -/
theorem modeLoop3 (xs : List ℝ) (rest extra : List XR) (N : ℕ) (hN : xs.length ≤ N) :
    forN xs.length (fun i (s : List XR × Nat) => do
      let a ← rd (xs.map XR.fin ++ rest) i
      if CReal.ge a (lit 1e-5) || CReal.le a (lit 1e-5) then do
        let k ← vecContains ⟨N, s.1⟩ a (lit 1e-5)
        if k = 0 then do
          let wd ← wr s.1 s.2 a
          return (wd, s.2 + 1)
        else return s
      else return s) (List.replicate N (XR.fin 0) ++ extra, 0) =
    ok ((sortReps xs).map XR.fin ++ (List.replicate (N - (sortReps xs).length) (XR.fin 0) ++ extra), (sortReps xs).length) := by
  have key := forN_eq (n := xs.length) (s := (List.replicate N (XR.fin 0) ++ extra, 0))
    (f := fun i (s : List XR × Nat) => do
      let a ← rd (xs.map XR.fin ++ rest) i
      if CReal.ge a (lit 1e-5) || CReal.le a (lit 1e-5) then do
        let k ← vecContains ⟨N, s.1⟩ a (lit 1e-5)
        if k = 0 then do
          let wd ← wr s.1 s.2 a
          return (wd, s.2 + 1)
        else return s
      else return s)
    (fun j => ((sortReps (xs.take j)).map XR.fin ++
      (List.replicate (N - (sortReps (xs.take j)).length) (XR.fin 0) ++ extra),
      (sortReps (xs.take j)).length)) (by simp [sortReps]) ?_
  · rw [List.take_length] at key
    exact key
  intro j hj
  have ht : xs.take (j + 1) = xs.take j ++ [xs[j]] := List.take_succ_eq_append_getElem hj
  have hc : (sortReps (xs.take j)).length ≤ j := (sortReps_length_le _).trans (by simp)
  have hrep := sortReps_append (xs.take j) xs[j]
  rw [ht, hrep]
  generalize sortReps (xs.take j) = us at hc ⊢
  generalize ha : xs[j] = a
  dsimp only
  rw [rd_of (x := XR.fin a) (by rw [List.getElem?_append_left (by simpa using hj)]; simp [hj, ha]),
    ok_bind, if_pos (by
      rw [Bool.or_eq_true, lit_eps, XR.fin_ge, XR.fin_le]
      exact le_total _ _)]
  have hlist : us.map XR.fin ++ (List.replicate (N - us.length) (XR.fin 0) ++ extra) =
      (us ++ List.replicate (N - us.length) 0).map XR.fin ++ extra := by
    simp
  have hcon : (us ++ List.replicate (N - us.length) (0 : ℝ)).countP
      (fun b => decide (|b - a| < 1e-5)) = 0 ↔ ¬ (|a| < 1e-5 ∨ ∃ u ∈ us, |u - a| < 1e-5) := by
    rw [List.countP_eq_zero]
    simp only [List.mem_append, List.mem_replicate, decide_eq_true_eq]
    constructor
    · rintro h (h0 | ⟨u, hu, h1⟩)
      · refine h 0 (Or.inr ⟨by omega, rfl⟩) ?_
        simpa using h0
      · exact h u (Or.inl hu) h1
    · intro h b hb hlt
      rcases hb with hb | ⟨_, rfl⟩
      · exact h (Or.inr ⟨b, hb, hlt⟩)
      · apply h
        left
        simpa using hlt
  rw [hlist, vecContains_list _ _ _ (by simp; omega), ok_bind]
  by_cases hcase : |a| < 1e-5 ∨ ∃ u ∈ us, |u - a| < 1e-5
  · rw [if_neg (fun h => hcon.1 h hcase), if_pos hcase, ← hlist]
    rfl
  · rw [if_pos (hcon.2 hcase), if_neg hcase, wr_lt _ (by simp; omega), ok_bind, pure_eq]
    congr 2
    · rw [← hlist, List.set_append_right _ _ (by simp), List.length_map, Nat.sub_self,
        List.set_append_left _ _ (by simp; omega)]
      obtain ⟨m, hm⟩ : ∃ m, N - us.length = m + 1 := ⟨N - us.length - 1, by omega⟩
      rw [hm, List.replicate_succ, List.set_cons_zero]
      have hm' : N - (us ++ [a]).length = m := by simp; omega
      rw [hm']
      simp
    · simp

/-- What `zsl_sta_mode` writes, for all data: the most frequent values up to the tolerances of the code. -/
theorem staMode_value (junk : ℕ → XR) (x : Fin n → ℝ) (y : Fin n → XR) (t u : List XR) (hn : 1 ≤ n) :
    staMode junk (vec x t) (vecOf y u) =
      ok (0, ⟨(sortAll (topList (List.ofFn x))).length,
        (sortAll (topList (List.ofFn x))).map XR.fin ++
          (List.replicate (n - (sortAll (topList (List.ofFn x))).length) (XR.fin 0) ++ u)⟩) := by
  have hlen : (List.ofFn x).length = n := List.length_ofFn
  have hdat : (vec x t).data = (List.ofFn x).map XR.fin ++ t := by
    rw [vec_data, arr, List.map_ofFn]; rfl
  have hvec : vec x t = ⟨n, (List.ofFn x).map XR.fin ++ t⟩ := by
    rw [← hdat]; rfl
  rw [staMode, if_neg (by simp), if_neg (by simp; omega), vecInit_vec, ok_bind]
  dsimp only
  rw [hvec]
  dsimp only
  generalize List.ofFn x = xs at hlen ⊢
  subst hlen
  have hl1 := modeLoop1 xs t (junkArr junk xs.length) (by simp [junkArr])
  refine Eq.trans (congrArg (fun x => x >>= _) hl1) ?_
  rw [ok_bind]
  dsimp only
  have hl2 := modeLoop2 xs t (junkArr junk xs.length) (by simp [junkArr])
  refine Eq.trans (congrArg (fun x => x >>= _) hl2) ?_
  rw [ok_bind]
  dsimp only
  have hTl : (topList xs).length ≤ xs.length := List.length_filter_le _ _
  have hl3 := modeLoop3 (topList xs) ((junkArr junk xs.length).drop (topList xs).length) u xs.length hTl
  have hz : (vec (0 : Fin xs.length → ℝ) u).data = List.replicate xs.length (XR.fin 0) ++ u := by
    rw [vec_data, arr]
    congr 1
    apply List.ext_getElem <;> simp
  rw [vec_sz, hz]
  refine Eq.trans (congrArg (fun x => x >>= _) hl3) ?_
  rw [ok_bind]
  dsimp only
  have h0 := vecContains_list (topList xs) ((junkArr junk xs.length).drop (topList xs).length) _ rfl 0
  rw [lit_zero', h0, ok_bind, pure_eq]
  have hall := sortAll_length (topList xs)
  have hiff : 0 < (topList xs).countP (fun b => decide (|b - 0| < 1e-5)) ↔ ∃ a ∈ topList xs, |a| < 1e-5 := by
    rw [List.countP_pos_iff]
    simp
  unfold sortAll at hall ⊢
  by_cases h : ∃ a ∈ topList xs, |a| < 1e-5
  · rw [if_pos (hiff.2 h)]
    rw [if_pos h] at hall ⊢
    simp only [List.length_append, List.length_singleton] at hall ⊢
    obtain ⟨m, hm⟩ : ∃ m, xs.length - (sortReps (topList xs)).length = m + 1 :=
      ⟨xs.length - (sortReps (topList xs)).length - 1, by omega⟩
    have hm' : xs.length - ((sortReps (topList xs)).length + 1) = m := by omega
    rw [hm, hm', List.replicate_succ]
    simp
  · rw [if_neg (fun hc => h (hiff.1 hc)), if_neg h]
    simp

theorem natCard_eq_count (x : Fin n → ℝ) (b : ℝ) : Nat.card {i // x i = b} = (List.ofFn x).count b := by
  classical
  rw [Nat.card_eq_fintype_card, Fintype.card_subtype]
  induction n with
  | zero => simp
  | succ n ih =>
    rw [List.ofFn_succ, List.count_cons, ← ih, Fin.card_filter_univ_succ]
    simp only [beq_iff_eq]
    split <;> simp [add_comm]

theorem nearCount_sep {xs : List ℝ} (h : Separated xs) {a : ℝ} (ha : a ∈ xs) : nearCount xs a = xs.count a := by
  unfold nearCount List.count
  refine List.countP_congr fun b hb => ?_
  rw [decide_eq_true_eq, beq_iff_eq]
  constructor
  · intro hlt
    rcases h.1 b hb a ha with e | e
    · exact e
    · norm_num at hlt e; linarith
  · rintro rfl
    norm_num

/-- C107: for data whose distinct values (and zero) are at least 1e-5 apart the output holds exactly the modes, each once; its size is
set to their number, and the cells behind the output are untouched. -/
theorem sta_mode_partial (junk : ℕ → XR) (x : Fin n → ℝ) (y : Fin n → XR) (t u : List XR) (hn : 1 ≤ n) (h : Separated (List.ofFn x)) :
    ∃ l : List ℝ, staMode junk (vec x t) (vecOf y u) =
        ok (0, ⟨l.length, l.map XR.fin ++ (List.replicate (n - l.length) (XR.fin 0) ++ u)⟩) ∧
      l ≠ [] ∧ l.length ≤ n ∧ l.Nodup ∧ ∀ a, a ∈ l ↔ IsMode x a := by
  have hne : List.ofFn x ≠ [] := by
    intro hc
    have := congrArg List.length hc
    simp at this
    omega
  have hsub : ∀ a ∈ topList (List.ofFn x), a ∈ List.ofFn x := fun a ha => (List.mem_filter.1 ha).1
  have hsep : Separated (topList (List.ofFn x)) :=
    ⟨fun a ha b hb => h.1 a (hsub a ha) b (hsub b hb), fun a ha => h.2 a (hsub a ha)⟩
  have hmem : ∀ a, a ∈ sortAll (topList (List.ofFn x)) ↔ IsMode x a := by
    intro a
    rw [hsep.mem_all, topList, List.mem_filter, decide_eq_true_eq]
    unfold IsMode
    rw [List.mem_ofFn]
    refine and_congr_right fun ⟨i, hi⟩ => ?_
    have ha : a ∈ List.ofFn x := List.mem_ofFn.2 ⟨i, hi⟩
    rw [nearCount_sep h ha]
    constructor
    · intro e b
      rw [natCard_eq_count, natCard_eq_count]
      by_cases hb : b ∈ List.ofFn x
      · rw [e, ← nearCount_sep h hb]
        exact topCount_ge _ _ b hb
      · rw [List.count_eq_zero_of_not_mem hb]
        omega
    · intro hb
      refine le_antisymm ?_ ?_
      · rw [← nearCount_sep h ha]
        exact topCount_ge _ _ a ha
      · obtain ⟨c, hc, e⟩ := topCount_mem (List.ofFn x) (List.ofFn x) hne
        rw [← e, nearCount_sep h hc]
        have := hb c
        rwa [natCard_eq_count, natCard_eq_count] at this
  refine ⟨_, staMode_value junk x y t u hn, ?_, ?_, sortAll_nodup _, hmem⟩
  · obtain ⟨c, hc, e⟩ := topCount_mem (List.ofFn x) (List.ofFn x) hne
    have : topList (List.ofFn x) ≠ [] := List.ne_nil_of_mem (List.mem_filter.2 ⟨hc, decide_eq_true e⟩)
    exact List.ne_nil_of_length_pos (sortAll_pos _ this)
  · refine (sortAll_length _).trans ((List.length_filter_le _ _).trans (by simp))

/-- C107 fails below the tolerance: the mode of the single datum 5e-6 is reported as 0. -/
theorem sta_mode_small (junk : ℕ → XR) (y : Fin 1 → XR) :
    staMode junk (vec ![5e-6] []) (vecOf y []) = ok (0, ⟨1, [XR.fin 0]⟩) ∧ ¬ IsMode ![(5e-6 : ℝ)] 0 := by
  constructor
  · have ht : topList (List.ofFn ![(5e-6 : ℝ)]) = [5e-6] := by
      simp [topList, topCount, nearCount]
    have hs : sortAll [(5e-6 : ℝ)] = [0] := by
      unfold sortAll
      have : sortReps [(5e-6 : ℝ)] = [] := by
        simp only [sortReps, List.foldl]
        rw [if_pos (Or.inl (by norm_num [abs_of_pos]))]
      rw [this, if_pos ⟨5e-6, by simp, by norm_num [abs_of_pos]⟩]
      rfl
    rw [staMode_value junk _ y [] [] le_rfl, ht, hs]
    rfl
  · rintro ⟨⟨i, hi⟩, -⟩
    fin_cases i
    norm_num at hi

/-- C107: a size mismatch is refused and the output left alone. -/
theorem sta_mode_mismatch {R : Type} [CReal R] (junk : ℕ → R) (v w : Vec R) (h : v.sz ≠ w.sz) : staMode junk v w = ok (-EINVAL, w) := by
  rw [staMode, if_pos h]

/-- C107: no data: undefined behaviour (arrays of length zero). -/
theorem sta_mode_empty {R : Type} [CReal R] (junk : ℕ → R) (v w : Vec R) (hv : v.sz = 0) (hw : w.sz = 0) : staMode junk v w = ub := by
  rw [staMode, if_neg (by omega), if_pos hv]

/-- Non-vacuity of C107: 4, 0, 4, 0, 7 has the two modes 4 and 0. -/
example (junk : ℕ → XR) (y : Fin 5 → XR) :
    ∃ l : List ℝ, staMode junk (vec ![4, 0, 4, 0, 7] []) (vecOf y []) =
        ok (0, ⟨2, l.map XR.fin ++ List.replicate 3 (XR.fin 0)⟩) ∧ l.length = 2 ∧ 4 ∈ l ∧ 0 ∈ l := by
  have hsep : Separated (List.ofFn ![(4 : ℝ), 0, 4, 0, 7]) := by
    constructor
    · intro a ha b hb
      simp only [List.ofFn_succ, List.ofFn_zero, Matrix.cons_val_zero, Matrix.cons_val_succ, List.mem_cons, List.not_mem_nil, or_false] at ha hb
      rcases ha with rfl | rfl | rfl | rfl | rfl <;> rcases hb with rfl | rfl | rfl | rfl | rfl <;> norm_num [abs_of_neg]
    · intro a ha
      simp only [List.ofFn_succ, List.ofFn_zero, Matrix.cons_val_zero, Matrix.cons_val_succ, List.mem_cons, List.not_mem_nil, or_false] at ha
      rcases ha with rfl | rfl | rfl | rfl | rfl <;> norm_num
  obtain ⟨l, e, hne, hle, hnd, hm⟩ := sta_mode_partial junk ![4, 0, 4, 0, 7] y [] [] (by omega) hsep
  have hof : List.ofFn ![(4 : ℝ), 0, 4, 0, 7] = [4, 0, 4, 0, 7] := by simp
  have h4 : (List.ofFn ![(4 : ℝ), 0, 4, 0, 7]).count 4 = 2 := by rw [hof]; norm_num [List.count_cons]
  have h0 : (List.ofFn ![(4 : ℝ), 0, 4, 0, 7]).count 0 = 2 := by rw [hof]; norm_num [List.count_cons]
  have h7 : (List.ofFn ![(4 : ℝ), 0, 4, 0, 7]).count 7 = 1 := by rw [hof]; norm_num [List.count_cons]
  have hall : ∀ b : ℝ, (List.ofFn ![(4 : ℝ), 0, 4, 0, 7]).count b ≤ 2 := by
    intro b
    by_cases hb : b ∈ List.ofFn ![(4 : ℝ), 0, 4, 0, 7]
    · rw [hof] at hb
      simp only [List.mem_cons, List.not_mem_nil, or_false] at hb
      rcases hb with rfl | rfl | rfl | rfl | rfl
      all_goals first | rw [h4] | rw [h0] | rw [h7]; norm_num
    · rw [List.count_eq_zero_of_not_mem hb]; omega
  have m4 : 4 ∈ l := (hm 4).2 ⟨⟨0, rfl⟩, fun b => by rw [natCard_eq_count, natCard_eq_count, h4]; exact hall b⟩
  have m0 : 0 ∈ l := (hm 0).2 ⟨⟨1, rfl⟩, fun b => by rw [natCard_eq_count, natCard_eq_count, h0]; exact hall b⟩
  have hsub : l ⊆ [4, 0] := by
    intro a ha
    obtain ⟨⟨i, hi⟩, hb⟩ := (hm a).1 ha
    have := hb 4
    rw [natCard_eq_count, natCard_eq_count, h4] at this
    fin_cases i <;> simp at hi <;> subst hi <;> simp
    rw [h7] at this
    omega
  have hl2 : l.length = 2 := by
    refine le_antisymm (by simpa using (List.subperm_of_subset hnd hsub).length_le) ?_
    have h2 : ([4, 0] : List ℝ) ⊆ l := by
      intro a ha
      simp only [List.mem_cons, List.not_mem_nil, or_false] at ha
      rcases ha with rfl | rfl
      · exact m4
      · exact m0
    simpa using (List.subperm_of_subset (by simp) h2).length_le
  refine ⟨l, ?_, hl2, m4, m0⟩
  rw [e, hl2, List.append_nil]

end Verif
