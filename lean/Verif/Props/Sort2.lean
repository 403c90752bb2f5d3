import Verif.Props.Stat3

/-!
# Sorting and percentiles of all finite data (C12, C46, C83)

`zsl_vec_sort` merges elements closer than the tolerance `10⁻⁵`. For every finite vector it either writes a sorted vector whose
k-th element is within the tolerance of the k-th smallest element of the input, or writes beyond the end of the output, and the
latter only if closeness is not transitive on the data. Data on which it is transitive are called `Clustered`.
-/

namespace Verif

open Out

/-- Closeness within the tolerance of `zsl_vec_sort` is transitive on the data and zero. -/
def Clustered (xs : List ℝ) : Prop :=
  ∀ a ∈ 0 :: xs, ∀ b ∈ xs, ∀ c ∈ 0 :: xs, |a - b| < 1e-5 → |b - c| < 1e-5 → |a - c| < 1e-5

theorem Separated.clustered {xs : List ℝ} (h : Separated xs) : Clustered xs := by
  have key : ∀ a ∈ 0 :: xs, ∀ b ∈ xs, |a - b| < 1e-5 → a = b := by
    intro a ha b hb hab
    rcases List.mem_cons.1 ha with rfl | ha
    · rw [zero_sub, abs_neg] at hab
      exact ((h.near_zero hb).1 hab).symm
    · exact (h.near hb ha).1 hab
  intro a ha b hb c hc h1 h2
  rw [abs_sub_comm] at h2
  rw [key a ha b hb h1, key c hc b hb h2]
  norm_num

theorem sortAll_mem {xs : List ℝ} {u : ℝ} (h : u ∈ sortAll xs) : u ∈ 0 :: xs := by
  unfold sortAll at h
  rcases List.mem_append.1 h with h | h
  · exact List.mem_cons_of_mem _ (sortReps_sub xs u h).1
  · split at h
    · rw [List.mem_singleton] at h
      simp [h]
    · simp at h

theorem sortAll_cover (xs : List ℝ) : ∀ a ∈ xs, ∃ u ∈ sortAll xs, |u - a| < 1e-5 := by
  intro a ha
  unfold sortAll
  rcases sortReps_cover xs a ha with h | ⟨u, hu, h⟩
  · refine ⟨0, ?_, by rwa [zero_sub, abs_neg]⟩
    rw [if_pos ⟨a, ha, h⟩]
    simp
  · exact ⟨u, List.mem_append_left _ hu, h⟩

theorem pairwise_ne {l : List ℝ} {R : ℝ → ℝ → Prop} (hs : ∀ a b, R a b → R b a) (h : l.Pairwise R) {a b : ℝ} (ha : a ∈ l)
    (hb : b ∈ l) (hab : a ≠ b) : R a b := by
  induction l with
  | nil => simp at ha
  | cons c l ih =>
    rw [List.pairwise_cons] at h
    rcases List.mem_cons.1 ha with ha1 | ha1 <;> rcases List.mem_cons.1 hb with hb1 | hb1
    · exact absurd (ha1.trans hb1.symm) hab
    · rw [ha1]; exact h.1 _ hb1
    · rw [hb1]; exact hs _ _ (h.1 _ ha1)
    · exact ih h.2 ha1 hb1

theorem sortAll_far {xs : List ℝ} {u v : ℝ} (hu : u ∈ sortAll xs) (hv : v ∈ sortAll xs) (h : |u - v| < 1e-5) : u = v := by
  by_contra hne
  exact pairwise_ne (fun a b h => by rwa [abs_sub_comm]) (sortAll_pairwise xs) hu hv hne h

/-- Counting pairs of close elements in two ways. -/
theorem countP_swap (S xs : List ℝ) (q : ℝ → ℝ → Bool) :
    (S.map fun u => xs.countP fun b => q b u).sum = (xs.map fun b => S.countP fun u => q b u).sum := by
  induction xs with
  | nil => simp
  | cons b xs ih =>
    simp only [List.map_cons, List.sum_cons, ← ih, List.countP_cons]
    rw [List.sum_map_add, add_comm]
    congr 1
    clear ih
    induction S with
    | nil => simp
    | cons c S ih => rw [List.map_cons, List.sum_cons, ih, List.countP_cons, add_comm]

theorem sortOut_length (xs : List ℝ) :
    (sortOut xs).length = (xs.map fun b => (sortAll xs).countP fun u => decide (|b - u| < 1e-5)).sum := by
  rw [← countP_swap]
  unfold sortOut
  rw [List.length_flatMap]
  simp only [List.length_replicate]
  exact ((List.perm_insertionSort _ _).map _).sum_eq

theorem one_le_countP (xs : List ℝ) : ∀ b ∈ xs, 1 ≤ (sortAll xs).countP fun u => decide (|b - u| < 1e-5) := by
  intro b hb
  obtain ⟨u, hu, h⟩ := sortAll_cover xs b hb
  rw [Nat.one_le_iff_ne_zero, ← Nat.pos_iff_ne_zero, List.countP_pos_iff]
  exact ⟨u, hu, by rw [abs_sub_comm] at h; simpa using h⟩

theorem sum_ge_length {α : Type} (l : List α) (f : α → ℕ) (h : ∀ a ∈ l, 1 ≤ f a) : l.length ≤ (l.map f).sum := by
  induction l with
  | nil => simp
  | cons a l ih =>
    have := ih fun b hb => h b (List.mem_cons_of_mem _ hb)
    have := h a (by simp)
    simp only [List.length_cons, List.map_cons, List.sum_cons]
    omega

theorem sum_eq_length {α : Type} (l : List α) (f : α → ℕ) (h : ∀ a ∈ l, 1 ≤ f a) (he : (l.map f).sum ≤ l.length) : ∀ a ∈ l, f a = 1 := by
  induction l with
  | nil => simp
  | cons a l ih =>
    have h1 := sum_ge_length l f fun b hb => h b (List.mem_cons_of_mem _ hb)
    have h2 := h a (by simp)
    simp only [List.length_cons, List.map_cons, List.sum_cons] at he
    intro b hb
    rcases List.mem_cons.1 hb with rfl | hb
    · omega
    · exact ih (fun b hb => h b (List.mem_cons_of_mem _ hb)) (by omega) b hb

theorem sortOut_length_ge (xs : List ℝ) : xs.length ≤ (sortOut xs).length := by
  rw [sortOut_length]
  exact sum_ge_length _ _ (one_le_countP xs)

/-- Every element is close to exactly one representative. -/
def OneRep (xs : List ℝ) : Prop := ∀ b ∈ xs, ∀ u ∈ sortAll xs, ∀ v ∈ sortAll xs, |b - u| < 1e-5 → |b - v| < 1e-5 → u = v

theorem countP_le_one {l : List ℝ} (hnd : l.Nodup) (p : ℝ → Bool) :
    l.countP p ≤ 1 ↔ ∀ u ∈ l, ∀ v ∈ l, p u = true → p v = true → u = v := by
  rw [List.countP_eq_length_filter]
  have hnd' := hnd.filter p
  constructor
  · intro h u hu v hv pu pv
    have hu' : u ∈ l.filter p := List.mem_filter.2 ⟨hu, pu⟩
    have hv' : v ∈ l.filter p := List.mem_filter.2 ⟨hv, pv⟩
    generalize l.filter p = m at *
    match m, h with
    | [], _ => simp at hu'
    | [c], _ => rw [List.mem_singleton] at hu' hv'; rw [hu', hv']
    | _ :: _ :: _, h => simp at h
  · intro h
    have h' : ∀ u ∈ l.filter p, ∀ v ∈ l.filter p, u = v := fun u hu v hv =>
      h u (List.mem_filter.1 hu).1 v (List.mem_filter.1 hv).1 (List.mem_filter.1 hu).2 (List.mem_filter.1 hv).2
    generalize l.filter p = m at *
    match m with
    | [] => simp
    | [c] => simp
    | c :: d :: m =>
      exfalso
      rw [List.nodup_cons] at hnd'
      exact hnd'.1 (by rw [h' c (by simp) d (by simp)]; simp)

theorem oneRep_iff (xs : List ℝ) : OneRep xs ↔ (sortOut xs).length = xs.length := by
  have key : OneRep xs ↔ ∀ b ∈ xs, (sortAll xs).countP (fun u => decide (|b - u| < 1e-5)) = 1 := by
    constructor
    · intro h b hb
      refine le_antisymm ((countP_le_one (sortAll_nodup xs) _).2 ?_) (one_le_countP xs b hb)
      intro u hu v hv pu pv
      exact h b hb u hu v hv (by simpa using pu) (by simpa using pv)
    · intro h b hb u hu v hv pu pv
      exact (countP_le_one (sortAll_nodup xs) _).1 (h b hb).le u hu v hv (by simpa using pu) (by simpa using pv)
  rw [key, sortOut_length]
  constructor
  · intro h
    rw [List.map_congr_left h]
    simp
  · intro h
    exact sum_eq_length _ _ (one_le_countP xs) h.le

theorem Clustered.oneRep {xs : List ℝ} (h : Clustered xs) : OneRep xs := by
  intro b hb u hu v hv h1 h2
  refine sortAll_far hu hv (h u (sortAll_mem hu) b hb v (sortAll_mem hv) ?_ h2)
  rwa [abs_sub_comm]

/-- Data close to two representatives are not clustered. -/
theorem not_oneRep {xs : List ℝ} (h : ¬ OneRep xs) :
    ∃ a ∈ 0 :: xs, ∃ b ∈ xs, ∃ c ∈ 0 :: xs, |a - b| < 1e-5 ∧ |b - c| < 1e-5 ∧ ¬ |a - c| < 1e-5 := by
  unfold OneRep at h
  push Not at h
  obtain ⟨b, hb, u, hu, v, hv, h1, h2, hne⟩ := h
  exact ⟨u, sortAll_mem hu, b, hb, v, sortAll_mem hv, by rwa [abs_sub_comm], h2, fun hc => hne (sortAll_far hu hv hc)⟩

theorem count_sortOut (xs : List ℝ) (a : ℝ) :
    (sortOut xs).count a = if a ∈ sortAll xs then xs.countP (fun b => decide (|b - a| < 1e-5)) else 0 := by
  classical
  unfold sortOut
  rw [List.count_flatMap]
  have hnd : ((sortAll xs).insertionSort (· ≤ ·)).Nodup := (List.perm_insertionSort _ _).nodup_iff.2 (sortAll_nodup xs)
  have hmem : a ∈ (sortAll xs).insertionSort (· ≤ ·) ↔ a ∈ sortAll xs := List.mem_insertionSort _
  rw [← if_congr hmem rfl rfl]
  generalize (sortAll xs).insertionSort (· ≤ ·) = l at hnd
  clear hmem
  induction l with
  | nil => simp
  | cons c l ih =>
    rw [List.nodup_cons] at hnd
    rw [List.map_cons, List.sum_cons, ih hnd.2]
    simp only [Function.comp, List.count_replicate, beq_iff_eq]
    by_cases hca : c = a
    · subst hca
      rw [if_pos rfl, if_neg hnd.1, if_pos (by simp), add_zero]
    · rw [if_neg hca, zero_add]
      refine if_congr ?_ rfl rfl
      simp [Ne.symm hca]

theorem sortOut_pairwise (xs : List ℝ) : (sortOut xs).Pairwise (· ≤ ·) := by
  unfold sortOut
  have hs := List.pairwise_insertionSort (· ≤ · : ℝ → ℝ → Prop) (sortAll xs)
  generalize (sortAll xs).insertionSort (· ≤ ·) = l at hs
  induction l with
  | nil => simp
  | cons c l ih =>
    rw [List.flatMap_cons, List.pairwise_append]
    rw [List.pairwise_cons] at hs
    refine ⟨List.pairwise_replicate_of_refl, ih hs.2, ?_⟩
    intro a ha b hb
    rw [List.mem_replicate] at ha
    rw [List.mem_flatMap] at hb
    obtain ⟨d, hd, hb⟩ := hb
    rw [List.mem_replicate] at hb
    rw [ha.2, hb.2]
    exact hs.1 d hd

/-- If every element is close to exactly one representative, the output is the sorted data with every element replaced by its
representative. -/
theorem sortOut_near {xs : List ℝ} (h : OneRep xs) :
    ∃ r : ℝ → ℝ, (∀ b ∈ xs, r b ∈ 0 :: xs ∧ |b - r b| < 1e-5) ∧ sortOut xs = (xs.insertionSort (· ≤ ·)).map r := by
  classical
  have hex : ∀ b, ∃ u, b ∈ xs → u ∈ sortAll xs ∧ |b - u| < 1e-5 := by
    intro b
    by_cases hb : b ∈ xs
    · obtain ⟨u, hu, h1⟩ := sortAll_cover xs b hb
      exact ⟨u, fun _ => ⟨hu, by rwa [abs_sub_comm]⟩⟩
    · exact ⟨0, fun hc => absurd hc hb⟩
  choose r hr using hex
  refine ⟨r, fun b hb => ⟨sortAll_mem (hr b hb).1, (hr b hb).2⟩, ?_⟩
  have hmono : ∀ a ∈ xs, ∀ b ∈ xs, a ≤ b → r a ≤ r b := by
    intro a ha b hb hab
    by_contra hc
    rw [not_le] at hc
    have h1 := abs_lt.1 (hr a ha).2
    have h2 := abs_lt.1 (hr b hb).2
    have hfar : ¬ |r a - r b| < 1e-5 := fun h' => hc.ne' (sortAll_far (hr a ha).1 (hr b hb).1 h')
    rw [abs_of_pos (by linarith), not_lt] at hfar
    have : r a = r b := h a ha _ (hr a ha).1 _ (hr b hb).1 (hr a ha).2 (abs_lt.2 ⟨by linarith, by linarith⟩)
    linarith
  refine List.Perm.eq_of_pairwise' (r := (· ≤ ·)) (sortOut_pairwise xs) ?_ ?_
  · rw [List.pairwise_map]
    refine (List.pairwise_insertionSort (· ≤ ·) xs).imp_of_mem ?_
    intro a b ha hb hab
    exact hmono a ((List.mem_insertionSort _).1 ha) b ((List.mem_insertionSort _).1 hb) hab
  · refine List.Perm.trans ?_ ((List.perm_insertionSort (· ≤ ·) xs).map r).symm
    rw [List.perm_iff_count]
    intro c
    rw [count_sortOut, List.count, List.countP_map]
    split
    · rename_i hc
      apply List.countP_congr
      intro b hb
      simp only [decide_eq_true_eq, Function.comp, beq_iff_eq]
      constructor
      · intro hb'
        exact h b hb _ (hr b hb).1 _ hc (hr b hb).2 hb'
      · rintro rfl
        exact (hr b hb).2
    · rename_i hc
      symm
      rw [List.countP_eq_zero]
      intro b hb
      simp only [Function.comp, beq_iff_eq]
      rintro rfl
      exact hc (hr b hb).1

theorem sortAll_lt {xs : List ℝ} (h : ¬ xs.Nodup) : (sortAll xs).length < xs.length := by
  classical
  have hcard : xs.toFinset.card < xs.length := by
    refine lt_of_le_of_ne (List.toFinset_card_le xs) fun hc => h ?_
    have : xs.dedup.length = xs.length := by rwa [← List.card_toFinset]
    rw [← (List.dedup_sublist xs).eq_of_length this]
    exact List.nodup_dedup xs
  refine lt_of_le_of_lt ?_ hcard
  rw [← List.toFinset_card_of_nodup (sortAll_nodup xs)]
  have hrep : ∀ u ∈ sortReps xs, u ≠ 0 := by
    intro u hu hc
    apply (sortReps_sub xs u hu).2
    rw [hc]
    norm_num
  by_cases hz : ∃ a ∈ xs, |a| < 1e-5
  · obtain ⟨a, ha, hlt⟩ := hz
    have hmem : ∀ u ∈ sortAll xs, u = 0 ∨ (u ∈ sortReps xs ∧ u ≠ 0) := by
      intro u hu
      unfold sortAll at hu
      rcases List.mem_append.1 hu with hu | hu
      · exact Or.inr ⟨hu, hrep u hu⟩
      · split at hu
        · exact Or.inl (by simpa using hu)
        · simp at hu
    refine Finset.card_le_card_of_injOn (fun u => if u = 0 then a else u) ?_ ?_
    · intro u hu
      rw [Finset.mem_coe, List.mem_toFinset] at hu
      rw [Finset.mem_coe, List.mem_toFinset]
      dsimp only
      rcases hmem u hu with h | h
      · rwa [if_pos h]
      · rw [if_neg h.2]
        exact (sortReps_sub xs u h.1).1
    · intro u hu v hv he
      rw [Finset.mem_coe, List.mem_toFinset] at hu hv
      dsimp only at he
      rcases hmem u hu with h1 | h1 <;> rcases hmem v hv with h2 | h2
      · rw [h1, h2]
      · rw [if_pos h1, if_neg h2.2] at he
        exact absurd (he ▸ hlt) (sortReps_sub xs v h2.1).2
      · rw [if_neg h1.2, if_pos h2] at he
        exact absurd (he ▸ hlt) (sortReps_sub xs u h1.1).2
      · rwa [if_neg h1.2, if_neg h2.2] at he
  · refine Finset.card_le_card fun u hu => ?_
    rw [List.mem_toFinset] at hu ⊢
    unfold sortAll at hu
    rw [if_neg hz, List.append_nil] at hu
    exact (sortReps_sub xs u hu).1

variable {n : ℕ}

/-- The circumstances in which `zsl_vec_sort` sorts up to its tolerance: closeness is transitive on the data, there is a repeated
value or at least one cell behind the work buffer, and the recursion budget suffices. -/
structure SortNear (fuel : ℕ) (extra : List XR) (x : Fin n → ℝ) : Prop where
  cl : Clustered (List.ofFn x)
  ex : extra ≠ [] ∨ ¬ Function.Injective x
  fuel : 2 * n ≤ fuel
  mem : n + extra.length < SIZE_MOD

theorem SortOK.near {fuel : ℕ} {extra : List XR} {x : Fin n → ℝ} (h : SortOK fuel extra x) : SortNear fuel extra x :=
  ⟨h.sep.clustered, h.ex, h.fuel, h.mem⟩

/-- The data with every element replaced by its representative. -/
theorem sortOut_snap {x : Fin n → ℝ} (h : OneRep (List.ofFn x)) :
    ∃ z : Fin n → ℝ, (∀ i, |z i - x i| < 1e-5) ∧ (∀ i, z i = 0 ∨ ∃ j, z i = x j) ∧
      sortOut (List.ofFn x) = sortedOf z ∧ (∀ k < n, |(sortedOf z).getD k 0 - (sortedOf x).getD k 0| < 1e-5) := by
  obtain ⟨r, hr, e⟩ := sortOut_near h
  have hz : sortOut (List.ofFn x) = sortedOf fun i => r (x i) := by
    refine List.Perm.eq_of_pairwise' (r := (· ≤ ·)) (sortOut_pairwise _) (sortedOf_pairwise _) ?_
    rw [e]
    refine ((List.perm_insertionSort (· ≤ ·) (List.ofFn x)).map r).trans ?_
    rw [List.map_ofFn]
    exact (sortedOf_perm _).symm
  refine ⟨fun i => r (x i), fun i => ?_, fun i => ?_, hz, fun k hk => ?_⟩
  · rw [abs_sub_comm]
    exact (hr _ (List.mem_ofFn.2 ⟨i, rfl⟩)).2
  · rcases List.mem_cons.1 (hr _ (List.mem_ofFn.2 ⟨i, rfl⟩)).1 with h | h
    · exact Or.inl h
    · obtain ⟨j, hj⟩ := List.mem_ofFn.1 h
      exact Or.inr ⟨j, hj.symm⟩
  · have hl := sortedOf_length x
    rw [← hz, e]
    show |((sortedOf x).map r).getD k 0 - _| < _
    rw [List.getD_eq_getElem _ _ (by rw [List.length_map]; omega), List.getElem_map, List.getD_eq_getElem _ _ (by omega), abs_sub_comm]
    exact (hr _ ((sortedOf_perm x).mem_iff.1 (List.getElem_mem _))).2

/-- C12, all finite data, part: if a cell behind the work buffer may be read or some value repeats, and the output has exactly `n`
cells, then `zsl_vec_sort` either stores in ascending order the elements of a vector that differs from the data by less than 10⁻⁵ in
every element, so that the k-th stored element is within 10⁻⁵ of the k-th smallest; or it writes beyond the end of the output, and
then there are data (or zero) `a`, `b`, `c` such that `a`, `b` and `b`, `c` are closer than 10⁻⁵ but `a`, `c` are not. -/
theorem vec_sort_dichotomy (fuel : ℕ) (extra : List XR) (x : Fin n → ℝ) (y : Fin n → XR) (t : List XR) (hn : 1 ≤ n)
    (ex : extra ≠ [] ∨ ¬ Function.Injective x) (hf : 2 * n ≤ fuel) (hm : n + extra.length < SIZE_MOD) :
    (∃ z : Fin n → ℝ, (∀ i, |z i - x i| < 1e-5) ∧ (∀ k < n, |(sortedOf z).getD k 0 - (sortedOf x).getD k 0| < 1e-5) ∧
      vecSort fuel extra (vec x t) (vecOf y []) = ok (0, ⟨n, (sortedOf z).map XR.fin⟩)) ∨
    (vecSort fuel extra (vec x t) (vecOf y []) = ub ∧ ¬ Clustered (List.ofFn x)) := by
  have hlen : (List.ofFn x).length = n := List.length_ofFn
  have hvd : vec x t = ⟨(List.ofFn x).length, (List.ofFn x).map XR.fin ++ t⟩ := by
    rw [hlen]
    simp [vec, arr, List.map_ofFn, Function.comp_def]
  have e := vec_sort_exact (List.ofFn x) t extra (vecOf y []) fuel (by
    intro h
    have := congrArg List.length h
    simp at this
    omega) (by simpa using hf) (by simpa using hm) (by
      rcases ex with h | h
      · exact Or.inl h
      · exact Or.inr (sortAll_lt (by rwa [List.nodup_ofFn])))
  rw [← hvd] at e
  have hyl : (vecOf y []).data.length = n := by simp [vecOf, arrOf]
  by_cases h1 : OneRep (List.ofFn x)
  · obtain ⟨z, hz1, hz2, hz3, hz4⟩ := sortOut_snap h1
    refine Or.inl ⟨z, hz1, hz4, ?_⟩
    rw [(oneRep_iff _).1 h1, hlen, hyl, if_pos le_rfl, hz3, vecOf_drop, List.append_nil] at e
    exact e
  · refine Or.inr ⟨?_, fun hc => h1 hc.oneRep⟩
    have h2 : (sortOut (List.ofFn x)).length ≠ n := by
      rw [oneRep_iff, hlen] at h1
      exact h1
    have h3 := sortOut_length_ge (List.ofFn x)
    rw [hlen] at h3
    rw [e, hyl, if_neg (by omega)]

/-- C12, all data on which closeness is transitive, part: the output is the sorted vector up to the tolerance. -/
theorem vec_sort_near (fuel : ℕ) (extra : List XR) (x : Fin n → ℝ) (t : List XR) (hn : 1 ≤ n) (h : SortNear fuel extra x) :
    ∃ z : Fin n → ℝ, (∀ i, |z i - x i| < 1e-5) ∧ (∀ i, z i = 0 ∨ ∃ j, z i = x j) ∧
      (∀ k < n, |(sortedOf z).getD k 0 - (sortedOf x).getD k 0| < 1e-5) ∧
      ∀ y : Fin n → XR, vecSort fuel extra (vec x t) (vecOf y []) = ok (0, ⟨n, (sortedOf z).map XR.fin⟩) := by
  have hlen : (List.ofFn x).length = n := List.length_ofFn
  have hvd : vec x t = ⟨(List.ofFn x).length, (List.ofFn x).map XR.fin ++ t⟩ := by
    rw [hlen]
    simp [vec, arr, List.map_ofFn, Function.comp_def]
  obtain ⟨z, hz1, hz2, hz3, hz4⟩ := sortOut_snap h.cl.oneRep
  refine ⟨z, hz1, hz2, hz4, fun y => ?_⟩
  have e := vec_sort_exact (List.ofFn x) t extra (vecOf y []) fuel (by
    intro h
    have := congrArg List.length h
    simp at this
    omega) (by simpa using h.fuel) (by simpa using h.mem) (by
      rcases h.ex with h | h
      · exact Or.inl h
      · exact Or.inr (sortAll_lt (by rwa [List.nodup_ofFn])))
  have hyl : (vecOf y []).data.length = n := by simp [vecOf, arrOf]
  rw [← hvd, (oneRep_iff _).1 h.cl.oneRep, hlen, hyl, if_pos le_rfl, hz3, vecOf_drop, List.append_nil] at e
  exact e

/-! ## C46 -/

theorem sta_percentile_of_sort (fuel : ℕ) (extra : List XR) (junk : ℕ → XR) (x z : Fin n → ℝ) (t : List XR) (p : ℝ) (val : XR)
    (hn : 1 ≤ n) (hp0 : 0 < p) (hp1 : p < 100) (hn2 : n < 2147483648)
    (h : ∀ y : Fin n → XR, vecSort fuel extra (vec x t) (vecOf y []) = ok (0, ⟨n, (sortedOf z).map XR.fin⟩)) :
    staPercentile fuel extra junk (vec x t) (XR.fin p) val = ok (0, XR.fin (percVal (sortedOf z) p)) := by
  have hlt := floor_lt_of p hn hp0 hp1
  have hl := sortedOf_length z
  rw [staPercentile_unfold' fuel extra junk x t p val hn hp0.le hp1.le _ h hn2, percVal, hl, rdI_map _ _ (by omega)]
  simp only [ok_bind]
  by_cases hi : (⌊p * n / 100⌋₊ : ℝ) = p * n / 100
  · have hk := floor_pos_of p hn hp0 hi
    rw [if_pos hi, if_pos hi, show ((⌊p * n / 100⌋₊ : ℤ) - 1) = ((⌊p * n / 100⌋₊ - 1 : ℕ) : ℤ) by omega, rdI_map _ _ (by omega), ok_bind,
      XR.fin_add, XR.lit_eq, show ((2 : ℚ) : ℝ) = 2 by norm_num, XR.fin_div (by norm_num)]
    rfl
  · rw [if_neg hi, if_neg hi]
    rfl

theorem percVal_near (x z : Fin n → ℝ) (p : ℝ) (hn : 1 ≤ n) (hp0 : 0 < p) (hp1 : p < 100)
    (h : ∀ k < n, |(sortedOf z).getD k 0 - (sortedOf x).getD k 0| < 1e-5) :
    |percVal (sortedOf z) p - percVal (sortedOf x) p| < 1e-5 := by
  have hlt := floor_lt_of p hn hp0 hp1
  unfold percVal
  rw [sortedOf_length, sortedOf_length]
  split
  · have h1 := abs_lt.1 (h _ hlt)
    have h2 := abs_lt.1 (h (⌊p * n / 100⌋₊ - 1) (by omega))
    rw [abs_lt]
    constructor <;> linarith [h1.1, h1.2, h2.1, h2.2]
  · exact h _ hlt

theorem percVal_mem (x : Fin n → ℝ) (p : ℝ) (hn : 1 ≤ n) (hp0 : 0 < p) (hp1 : p < 100) :
    ∃ i j, x i ≤ percVal (sortedOf x) p ∧ percVal (sortedOf x) p ≤ x j := by
  have hlt := floor_lt_of p hn hp0 hp1
  have hs := sortedOf_pairwise x
  obtain ⟨i, hi⟩ := getD_sorted_mem x _ hlt
  unfold percVal
  rw [sortedOf_length]
  by_cases he : (⌊p * n / 100⌋₊ : ℝ) = p * n / 100
  · rw [if_pos he]
    obtain ⟨j, hj⟩ := getD_sorted_mem x (⌊p * n / 100⌋₊ - 1) (by omega)
    have hm := getD_mono _ hs (⌊p * n / 100⌋₊ - 1) _ (by omega) (by rw [sortedOf_length]; omega : ⌊p * n / 100⌋₊ < _)
    exact ⟨j, i, by rw [← hj]; linarith, by rw [← hi]; linarith⟩
  · rw [if_neg he]
    exact ⟨i, i, hi.ge, hi.le⟩

/-- C46, all data on which closeness is transitive, part: the p-th percentile, 0 < p < 100, is within 10⁻⁵ of a p-th percentile of
the data and less than 10⁻⁵ outside their range, and percentiles grow with p. -/
theorem sta_percentile_near (fuel : ℕ) (extra : List XR) (junk : ℕ → XR) (x : Fin n → ℝ) (t : List XR) (hn : 1 ≤ n)
    (h : SortNear fuel extra x) (hn2 : n < 2147483648) :
    ∃ v : ℝ → ℝ, ∀ p, 0 < p → p < 100 →
      (∀ val, staPercentile fuel extra junk (vec x t) (XR.fin p) val = ok (0, XR.fin (v p))) ∧
      (∃ w, IsPercentile x p w ∧ |v p - w| < 1e-5) ∧ (∃ i j, x i - 1e-5 < v p ∧ v p < x j + 1e-5) ∧
      ∀ q, p ≤ q → q < 100 → v p ≤ v q := by
  obtain ⟨z, hz, -, hs, hrun⟩ := vec_sort_near fuel extra x t hn h
  refine ⟨percVal (sortedOf z), fun p hp0 hp1 => ⟨fun val => sta_percentile_of_sort fuel extra junk x z t p val hn hp0 hp1 hn2 hrun,
    ⟨_, percVal_isPercentile x p hn hp0 hp1, percVal_near x z p hn hp0 hp1 hs⟩, ?_, fun q hpq hq => percVal_mono z p q hn hp0 hpq hq⟩⟩
  obtain ⟨i, j, h1, h2⟩ := percVal_mem x p hn hp0 hp1
  have := abs_lt.1 (percVal_near x z p hn hp0 hp1 hs)
  exact ⟨i, j, by linarith [this.1], by linarith [this.2]⟩

/-- C46, all data on which closeness is transitive, part: the median and the quartiles are within 10⁻⁵ of those of the data, the
quartiles are ordered and the interquartile range is not negative. -/
theorem sta_quart_near (fuel : ℕ) (extra : List XR) (junk : ℕ → XR) (x : Fin n → ℝ) (t : List XR) (q1 q2 q3 m : XR) (hn : 1 ≤ n)
    (h : SortNear fuel extra x) (hn2 : n < 2147483648) :
    ∃ a b c a' b' c' : ℝ, staQuart fuel extra junk (vec x t) q1 q2 q3 = ok (0, XR.fin a, XR.fin b, XR.fin c) ∧
      staMedian fuel extra junk (vec x t) m = ok (0, XR.fin b) ∧ staQuartRange fuel extra junk (vec x t) = ok (0, XR.fin (c - a)) ∧
      a ≤ b ∧ b ≤ c ∧ IsPercentile x 25 a' ∧ IsPercentile x 50 b' ∧ IsPercentile x 75 c' ∧
      |a - a'| < 1e-5 ∧ |b - b'| < 1e-5 ∧ |c - c'| < 1e-5 := by
  obtain ⟨v, hv⟩ := sta_percentile_near fuel extra junk x t hn h hn2
  obtain ⟨r1, ⟨a', ha', ha⟩, -, m1⟩ := hv 25 (by norm_num) (by norm_num)
  obtain ⟨r2, ⟨b', hb', hb⟩, -, m2⟩ := hv 50 (by norm_num) (by norm_num)
  obtain ⟨r3, ⟨c', hc', hc⟩, -, m3⟩ := hv 75 (by norm_num) (by norm_num)
  have e1 : (lit 25 : XR) = XR.fin 25 := by rw [XR.lit_eq]; norm_num
  have e2 : (lit 50 : XR) = XR.fin 50 := by rw [XR.lit_eq]; norm_num
  have e3 : (lit 75 : XR) = XR.fin 75 := by rw [XR.lit_eq]; norm_num
  refine ⟨v 25, v 50, v 75, a', b', c', ?_, ?_, ?_, m1 50 (by norm_num) (by norm_num), m2 75 (by norm_num) (by norm_num), ha', hb', hc',
    ha, hb, hc⟩
  · rw [staQuart, e1, e2, e3, r1, ok_bind]
    dsimp only
    rw [r2, ok_bind]
    dsimp only
    rw [r3]
    rfl
  · rw [staMedian, e2, r2]
    rfl
  · rw [staQuartRange, e1, e3, r1, ok_bind]
    dsimp only
    rw [r3, ok_bind]
    rfl

/-! ## C83 -/

/-- C83, all data on which closeness is transitive, part: the range is within 2·10⁻⁵ of the largest minus the smallest element. -/
theorem sta_data_range_near (fuel : ℕ) (extra : List XR) (junk : ℕ → XR) (x : Fin n → ℝ) (t : List XR) (hn : 1 ≤ n)
    (h : SortNear fuel extra x) :
    ∃ (i j : Fin n) (d : ℝ), staDataRange fuel extra junk (vec x t) = ok (0, XR.fin d) ∧ 0 ≤ d ∧ |d - (x j - x i)| < 2e-5 ∧
      ∀ k, x i ≤ x k ∧ x k ≤ x j := by
  obtain ⟨z, hz, -, hs, hrun⟩ := vec_sort_near fuel extra x t hn h
  have hl := sortedOf_length z
  have hlx := sortedOf_length x
  have hsx := sortedOf_pairwise x
  obtain ⟨i, hi⟩ := getD_sorted_mem x 0 (by omega)
  obtain ⟨j, hj⟩ := getD_sorted_mem x (n - 1) (by omega)
  refine ⟨i, j, (sortedOf z).getD (n - 1) 0 - (sortedOf z).getD 0 0, ?_, ?_, ?_, fun k => ?_⟩
  · rw [staDataRange, if_neg (by rw [vec_sz]; omega), vec_sz, vecUninit_eq, hrun, ok_bind]
    dsimp only
    have e : ∀ k, k < n → rd ((sortedOf z).map XR.fin) k = ok (XR.fin ((sortedOf z).getD k 0)) := by
      intro k hk
      have := rdI_map (sortedOf z) k (by omega)
      rwa [rdI, if_pos (by omega), Int.toNat_natCast] at this
    rw [e _ (by omega), ok_bind, e _ (by omega), ok_bind]
    rfl
  · have := getD_mono _ (sortedOf_pairwise z) 0 (n - 1) (by omega) (by omega)
    linarith
  · have h1 := abs_lt.1 (hs (n - 1) (by omega))
    have h2 := abs_lt.1 (hs 0 (by omega))
    rw [← hi, ← hj, abs_lt]
    norm_num at h1 h2 ⊢
    constructor <;> linarith [h1.1, h1.2, h2.1, h2.2]
  · have : x k ∈ sortedOf x := (sortedOf_perm x).mem_iff.2 (List.mem_ofFn.2 ⟨k, rfl⟩)
    obtain ⟨a, ha, he⟩ := List.mem_iff_getElem.1 this
    rw [← List.getD_eq_getElem _ 0 ha] at he
    rw [← hi, ← hj, ← he]
    exact ⟨getD_mono _ hsx _ _ (by omega) ha, getD_mono _ hsx _ _ (by omega) (by omega)⟩

/-- C83, part: the median absolute deviation is the median the code computes of the distances from the median it computes, if
closeness is transitive on the data and on these distances. -/
theorem sta_median_abs_dev_near (fuel : ℕ) (extra : List XR) (junk : ℕ → XR) (x : Fin n → ℝ) (t : List XR) (m : XR) (hn : 1 ≤ n)
    (h : SortNear fuel extra x) (hn2 : n < 2147483648) (med : ℝ)
    (hmed : staMedian fuel extra junk (vec x t) m = ok (0, XR.fin med)) (hd : SortNear fuel extra fun i => |x i - med|) :
    ∃ a b : ℝ, staMedianAbsDev fuel extra junk (vec x t) m = ok (0, XR.fin a) ∧
      IsPercentile (fun i => |x i - med|) 50 b ∧ |a - b| < 1e-5 ∧ -1e-5 < a := by
  obtain ⟨v, hv⟩ := sta_percentile_near fuel extra junk x t hn h hn2
  have e2 : (lit 50 : XR) = XR.fin 50 := by rw [XR.lit_eq]; norm_num
  have r1 := (hv 50 (by norm_num) (by norm_num)).1
  have hw : staMedian fuel extra junk (vec x t) (junk 0) = ok (0, XR.fin med) := by
    rw [staMedian, e2, r1] at hmed ⊢
    exact hmed
  obtain ⟨v', hv'⟩ := sta_percentile_near fuel extra junk (fun i => |x i - med|) [] hn hd hn2
  obtain ⟨r2, ⟨b, hb, hab⟩, ⟨i, j, hi, hj⟩, -⟩ := hv' 50 (by norm_num) (by norm_num)
  refine ⟨v' 50, b, ?_, hb, hab, ?_⟩
  · rw [staMedianAbsDev, if_neg (by rw [vec_sz]; omega), hw, ok_bind]
    dsimp only
    rw [vec_sz, junkArr_eq]
    rw [forN_write (List.ofFn fun i => XR.fin |x i - med|) (by simp) (by simp [arrOf]), ok_bind]
    · have hdrop : (arrOf (fun i : Fin n => junk i) []).drop n = [] := vecOf_drop _ _
      rw [hdrop, vec_ext _ _ _ rfl, staMedian, e2, r2]
      rfl
    · rintro i hi t' -
      rw [show rd (vec x t).data i = ok (XR.fin (x ⟨i, hi⟩)) from vec_rd x t ⟨i, hi⟩, ok_bind, XR.fin_sub, XR.fin_abs]
      simp
  · have := abs_nonneg (x i - med)
    linarith

/-! ## Tiny data -/

theorem sortOut_tiny {xs : List ℝ} (hne : xs ≠ []) (h : ∀ a ∈ xs, |a| < 1e-5) : sortOut xs = List.replicate xs.length 0 := by
  have hr : sortReps xs = [] := by
    rw [List.eq_nil_iff_forall_not_mem]
    intro u hu
    exact (sortReps_sub xs u hu).2 (h u (sortReps_sub xs u hu).1)
  obtain ⟨a, ha⟩ := List.exists_mem_of_ne_nil xs hne
  unfold sortOut sortAll
  rw [hr, if_pos ⟨a, ha, h a ha⟩]
  simpa using h

/-- C12, negation: elements smaller than 10⁻⁵ are replaced by zero. -/
theorem vec_sort_tiny (fuel : ℕ) (extra : List XR) (x : Fin n → ℝ) (y : Fin n → XR) (t : List XR) (hn : 1 ≤ n)
    (ex : extra ≠ [] ∨ ¬ Function.Injective x) (hf : 2 * n ≤ fuel) (hm : n + extra.length < SIZE_MOD) (h : ∀ i, |x i| < 1e-5) :
    vecSort fuel extra (vec x t) (vecOf y []) = ok (0, ⟨n, List.replicate n (XR.fin 0)⟩) := by
  have hlen : (List.ofFn x).length = n := List.length_ofFn
  have hvd : vec x t = ⟨(List.ofFn x).length, (List.ofFn x).map XR.fin ++ t⟩ := by
    rw [hlen]
    simp [vec, arr, List.map_ofFn, Function.comp_def]
  have hne : List.ofFn x ≠ [] := by
    intro h
    have := congrArg List.length h
    simp at this
    omega
  have e := vec_sort_exact (List.ofFn x) t extra (vecOf y []) fuel hne (by simpa using hf) (by simpa using hm) (by
      rcases ex with h | h
      · exact Or.inl h
      · exact Or.inr (sortAll_lt (by rwa [List.nodup_ofFn])))
  rw [← hvd, sortOut_tiny hne (by
    intro a ha
    obtain ⟨i, rfl⟩ := List.mem_ofFn.1 ha
    exact h i)] at e
  have hyl : (vecOf y []).data.length = n := by simp [vecOf, arrOf]
  rw [List.length_replicate, hlen, hyl, if_pos le_rfl, vecOf_drop, List.append_nil, List.map_replicate] at e
  exact e

/-- C46, negation: every percentile of data smaller than 10⁻⁵ is zero, also if all of them are positive. -/
theorem sta_percentile_tiny (fuel : ℕ) (extra : List XR) (junk : ℕ → XR) (x : Fin n → ℝ) (t : List XR) (p : ℝ) (val : XR) (hn : 1 ≤ n)
    (ex : extra ≠ [] ∨ ¬ Function.Injective x) (hf : 2 * n ≤ fuel) (hm : n + extra.length < SIZE_MOD) (hn2 : n < 2147483648)
    (hp0 : 0 < p) (hp1 : p < 100) (h : ∀ i, |x i| < 1e-5) :
    staPercentile fuel extra junk (vec x t) (XR.fin p) val = ok (0, XR.fin 0) := by
  have hz : sortedOf (fun _ : Fin n => (0 : ℝ)) = List.replicate n 0 := by
    rw [List.eq_replicate_iff]
    refine ⟨sortedOf_length _, fun b hb => ?_⟩
    obtain ⟨_, rfl⟩ := List.mem_ofFn.1 ((sortedOf_perm _).mem_iff.1 hb)
    rfl
  have hk : ∀ k, (List.replicate n (0 : ℝ)).getD k 0 = 0 := by
    intro k
    rw [List.getD_eq_getElem?_getD, List.getElem?_replicate]
    split <;> rfl
  rw [sta_percentile_of_sort fuel extra junk x (fun _ => 0) t p val hn hp0 hp1 hn2 (fun y => by
    rw [vec_sort_tiny fuel extra x y t hn ex hf hm h, hz, List.map_replicate]), hz]
  congr 2
  unfold percVal
  split
  · rw [hk, hk]
    norm_num
  · rw [hk]

/-- Example: of two readings of 5·10⁻⁶ the median is zero. -/
example (junk : ℕ → XR) (m : XR) : staMedian 4 [] junk (vec ![(5e-6 : ℝ), 5e-6] []) m = ok (0, XR.fin 0) := by
  have e2 : (lit 50 : XR) = XR.fin 50 := by rw [XR.lit_eq]; norm_num
  rw [staMedian, e2, sta_percentile_tiny 4 [] junk ![(5e-6 : ℝ), 5e-6] [] 50 m (by norm_num) (Or.inr fun h => by
    have := @h 0 1 (by simp)
    simp at this) (by norm_num) (by rw [SIZE_MOD_eq]; norm_num) (by norm_num) (by norm_num) (by norm_num) (fun i => by
      fin_cases i <;> norm_num [abs_lt])]
  rfl

/-- Example: data closer than the tolerance that meet the hypotheses of `vec_sort_near`, `sta_percentile_near`, `sta_quart_near` and
`sta_data_range_near`. -/
theorem sortNear_example : SortNear 6 [] ![(3 : ℝ), 2 + 6e-6, 2 + 6e-6] ∧ SortNear 6 [XR.nan] ![(3 : ℝ), 2 + 6e-6, 2] ∧
    ¬ Separated (List.ofFn ![(3 : ℝ), 2 + 6e-6, 2]) := by
  refine ⟨⟨?_, Or.inr fun h => by have := @h 1 2 (by simp); simp at this, by norm_num, by rw [SIZE_MOD_eq]; norm_num⟩,
    ⟨?_, Or.inl (by simp), by norm_num, by rw [SIZE_MOD_eq]; norm_num⟩, fun h => ?_⟩
  · intro a ha b hb c hc
    simp at ha hb hc
    rcases ha with rfl | rfl | rfl <;> rcases hb with rfl | rfl <;> rcases hc with rfl | rfl | rfl <;> norm_num [abs_lt]
  · intro a ha b hb c hc
    simp at ha hb hc
    rcases ha with rfl | rfl | rfl | rfl <;> rcases hb with rfl | rfl | rfl <;> rcases hc with rfl | rfl | rfl | rfl <;>
      norm_num [abs_lt]
  · have := h.1 (2 + 6e-6) (by simp) 2 (by simp)
    norm_num [abs_of_pos] at this

example (junk : ℕ → XR) : ∃ d : ℝ, staDataRange 6 [XR.nan] junk (vec ![(3 : ℝ), 2 + 6e-6, 2] []) = ok (0, XR.fin d) ∧ 0.9 < d := by
  obtain ⟨i, j, d, h1, h2, h3, h4⟩ := sta_data_range_near 6 [XR.nan] junk ![(3 : ℝ), 2 + 6e-6, 2] [] (by norm_num) sortNear_example.2.1
  refine ⟨d, h1, ?_⟩
  have ha := (h4 0).2
  have hb := (h4 2).1
  simp at ha hb
  have := abs_lt.1 h3
  norm_num at this ⊢
  linarith [this.1]

end Verif
