import Verif.Lemmas.Sort
import Verif.Props.Vectors3

/-!
# Sorting (C12)

The functional specification: `sortReps` are the representatives the code keeps, `sortOut` what it writes.
The property itself, for data separated by the tolerance, is `vec_sort_partial`; what goes wrong outside it is
`vec_sort_overread`, `vec_sort_overrun` and `vec_sort_empty`.
-/

namespace Verif

open Out

/-- Representatives of the values that are not within `10⁻⁵` of zero: an element is skipped if an earlier
representative is within `10⁻⁵`. -/
noncomputable def sortReps (xs : List ℝ) : List ℝ :=
  xs.foldl (fun us a => if |a| < 1e-5 ∨ ∃ u ∈ us, |u - a| < 1e-5 then us else us ++ [a]) []

/-- All representatives; zero stands for everything within `10⁻⁵` of zero. -/
noncomputable def sortAll (xs : List ℝ) : List ℝ :=
  sortReps xs ++ if ∃ a ∈ xs, |a| < 1e-5 then [0] else []

/-- What is written to the output: the sorted representatives, each repeated as often as there are elements within `10⁻⁵`. -/
noncomputable def sortOut (xs : List ℝ) : List ℝ :=
  ((sortAll xs).insertionSort (· ≤ ·)).flatMap fun a =>
    List.replicate (xs.countP fun b => decide (|b - a| < 1e-5)) a

theorem lit_eps : (lit 1e-5 : XR) = XR.fin 1e-5 := by
  rw [XR.lit_eq]
  norm_num

theorem vecContains_list (ls : List ℝ) (rest : List XR) (n : ℕ) (hn : ls.length = n) (a : ℝ) :
    vecContains ⟨n, ls.map XR.fin ++ rest⟩ (XR.fin a) (lit 1e-5) =
      ok (ls.countP fun b => decide (|b - a| < 1e-5)) := by
  rw [vec_contains_correct _ _ _ (by simp [Vec.WF, hn]), lit_eps, Vec.vals,
    List.take_append_of_le_length (by simp [hn]), List.take_of_length_le (by simp [hn]),
    List.countP_map]
  congr 2
  funext b
  rw [Bool.eq_iff_iff]
  simp only [Function.comp, XR.fin_sub, XR.fin_neg, Bool.and_eq_true, XR.fin_lt,
    decide_eq_true_eq, abs_lt]
  constructor <;> intro h <;> constructor <;> linarith [h.1, h.2]

theorem sortReps_append (xs : List ℝ) (a : ℝ) :
    sortReps (xs ++ [a]) = if |a| < 1e-5 ∨ ∃ u ∈ sortReps xs, |u - a| < 1e-5 then sortReps xs
      else sortReps xs ++ [a] := by
  rw [sortReps, List.foldl_append]
  rfl

theorem sortReps_length (xs : List ℝ) :
    (sortReps xs).length ≤ xs.countP fun a => decide (¬ |a| < 1e-5) := by
  induction xs using List.reverseRecOn with
  | nil => simp [sortReps]
  | append_singleton xs a ih =>
    rw [sortReps_append, List.countP_append]
    split
    · omega
    · rename_i h
      rw [not_or] at h
      simp only [List.length_append, List.length_singleton, List.countP_cons, List.countP_nil, h.1,
        not_false_iff, decide_true, if_true]
      omega

theorem sortReps_sub (xs : List ℝ) : ∀ u ∈ sortReps xs, u ∈ xs ∧ ¬ |u| < 1e-5 := by
  induction xs using List.reverseRecOn with
  | nil => simp [sortReps]
  | append_singleton xs a ih =>
    rw [sortReps_append]
    intro u hu
    split at hu
    · exact ⟨List.mem_append_left _ (ih u hu).1, (ih u hu).2⟩
    · rename_i h
      rw [not_or] at h
      rcases List.mem_append.1 hu with hu | hu
      · exact ⟨List.mem_append_left _ (ih u hu).1, (ih u hu).2⟩
      · rw [List.mem_singleton] at hu
        subst hu
        exact ⟨by simp, h.1⟩

theorem sortReps_cover (xs : List ℝ) : ∀ a ∈ xs, |a| < 1e-5 ∨ ∃ u ∈ sortReps xs, |u - a| < 1e-5 := by
  induction xs using List.reverseRecOn with
  | nil => simp
  | append_singleton xs b ih =>
    intro a ha
    rw [sortReps_append]
    rcases List.mem_append.1 ha with ha | ha
    · rcases ih a ha with h | ⟨u, hu, h⟩
      · exact Or.inl h
      · refine Or.inr ⟨u, ?_, h⟩
        split
        · exact hu
        · exact List.mem_append_left _ hu
    · rw [List.mem_singleton] at ha
      subst ha
      split
      · assumption
      · exact Or.inr ⟨a, by simp, by norm_num⟩

theorem sortReps_pairwise (xs : List ℝ) : (sortReps xs).Pairwise fun a b => ¬ |a - b| < 1e-5 := by
  induction xs using List.reverseRecOn with
  | nil => simp [sortReps]
  | append_singleton xs b ih =>
    rw [sortReps_append]
    split
    · exact ih
    · rename_i h
      rw [not_or, not_exists] at h
      rw [List.pairwise_append]
      refine ⟨ih, by simp, ?_⟩
      intro a ha c hc hlt
      rw [List.mem_singleton] at hc
      subst hc
      exact h.2 a ⟨ha, hlt⟩

theorem sortAll_pairwise (xs : List ℝ) : (sortAll xs).Pairwise fun a b => ¬ |a - b| < 1e-5 := by
  unfold sortAll
  rw [List.pairwise_append]
  refine ⟨sortReps_pairwise xs, by split <;> simp, ?_⟩
  intro a ha b hb
  split at hb
  · rw [List.mem_singleton] at hb
    subst hb
    rw [sub_zero]
    exact (sortReps_sub xs a ha).2
  · simp at hb

theorem sortAll_nodup (xs : List ℝ) : (sortAll xs).Nodup :=
  (sortAll_pairwise xs).imp fun {a b} h => by
    rintro rfl
    apply h
    norm_num

theorem sortAll_length (xs : List ℝ) : (sortAll xs).length ≤ xs.length := by
  unfold sortAll
  have h := sortReps_length xs
  have h2 := List.length_eq_countP_add_countP (fun a : ℝ => decide (|a| < 1e-5)) (l := xs)
  split
  · rename_i hex
    have : 0 < xs.countP fun a => decide (|a| < 1e-5) := by
      rw [List.countP_pos_iff]
      obtain ⟨a, ha, h⟩ := hex
      exact ⟨a, ha, by simpa using h⟩
    simp only [List.length_append, List.length_singleton]
    simp only [decide_not] at h
    simp only [decide_eq_true_eq, decide_not] at h2
    omega
  · simp only [List.append_nil]
    exact h.trans (List.countP_le_length)

theorem sortAll_pos (xs : List ℝ) (h : xs ≠ []) : 0 < (sortAll xs).length := by
  obtain ⟨a, ha⟩ := List.exists_mem_of_ne_nil xs h
  unfold sortAll
  rcases sortReps_cover xs a ha with h | ⟨u, hu, _⟩
  · rw [if_pos ⟨a, ha, h⟩]
    simp
  · have := List.length_pos_of_mem hu
    simp
    omega

theorem sortReps_length_le (xs : List ℝ) : (sortReps xs).length ≤ xs.length :=
  (sortReps_length xs).trans List.countP_le_length

/-- The de-duplication loop of `zsl_vec_sort`. -/
theorem sortDedup_eq (xs : List ℝ) (vrest extra : List XR) :
    sortDedup ⟨xs.length, xs.map XR.fin ++ vrest⟩
      ⟨xs.length, List.replicate xs.length (lit 0) ++ extra⟩ =
    ok ((sortReps xs).map XR.fin ++ (List.replicate (xs.length - (sortReps xs).length) (lit 0) ++ extra),
      (sortReps xs).length) := by
  unfold sortDedup
  have key := forN_eq (n := xs.length) (s := (List.replicate xs.length (lit 0 : XR) ++ extra, 0))
    (f := fun j (s : List XR × Nat) => do
      let (ud, count) := s
      let a ← rd (xs.map XR.fin ++ vrest) j
      if CReal.ge a (lit 1e-5) || CReal.le a (lit 1e-5) then do
        let c ← vecContains ⟨xs.length, ud⟩ a (lit 1e-5)
        if c = 0 then do
          let ud ← wr ud count a
          return (ud, count + 1)
        else return (ud, count)
      else return (ud, count))
    (fun j => ((sortReps (xs.take j)).map XR.fin ++
      (List.replicate (xs.length - (sortReps (xs.take j)).length) (lit 0) ++ extra),
      (sortReps (xs.take j)).length)) (by simp [sortReps]) ?_
  · rw [List.take_length] at key
    exact key
  intro j hj
  have ht : xs.take (j + 1) = xs.take j ++ [xs[j]] := List.take_succ_eq_append_getElem hj
  have hc : (sortReps (xs.take j)).length ≤ j := (sortReps_length_le _).trans (by simp)
  have hrep := sortReps_append (xs.take j) xs[j]
  rw [ht, hrep]
  generalize sortReps (xs.take j) = us at hc ⊢
  generalize ha : xs[j] = a
  dsimp only
  rw [rd_of (x := XR.fin a) (by rw [List.getElem?_append_left (by simpa using hj)]; simp [hj, ha]),
    ok_bind, if_pos (by
      rw [Bool.or_eq_true, lit_eps, XR.fin_ge, XR.fin_le]
      exact le_total _ _)]
  have hlist : us.map XR.fin ++ (List.replicate (xs.length - us.length) (lit 0) ++ extra) =
      (us ++ List.replicate (xs.length - us.length) 0).map XR.fin ++ extra := by
    simp [XR.lit_eq]
  have hcon : (us ++ List.replicate (xs.length - us.length) (0 : ℝ)).countP
      (fun b => decide (|b - a| < 1e-5)) = 0 ↔ ¬ (|a| < 1e-5 ∨ ∃ u ∈ us, |u - a| < 1e-5) := by
    rw [List.countP_eq_zero]
    simp only [List.mem_append, List.mem_replicate, decide_eq_true_eq]
    constructor
    · rintro h (h0 | ⟨u, hu, h1⟩)
      · refine h 0 (Or.inr ⟨by omega, rfl⟩) ?_
        simpa using h0
      · exact h u (Or.inl hu) h1
    · intro h b hb hlt
      rcases hb with hb | ⟨_, rfl⟩
      · exact h (Or.inr ⟨b, hb, hlt⟩)
      · apply h
        left
        simpa using hlt
  rw [hlist, vecContains_list _ _ _ (by simp; omega), ok_bind]
  by_cases hcase : |a| < 1e-5 ∨ ∃ u ∈ us, |u - a| < 1e-5
  · rw [if_neg (fun h => hcon.1 h hcase), if_pos hcase, ← hlist]
    rfl
  · rw [if_pos (hcon.2 hcase), if_neg hcase, wr_lt _ (by simp; omega), ok_bind, pure_eq]
    congr 2
    · rw [← hlist, List.set_append_right _ _ (by simp), List.length_map, Nat.sub_self,
        List.set_append_left _ _ (by simp; omega)]
      obtain ⟨m, hm⟩ : ∃ m, xs.length - us.length = m + 1 := ⟨xs.length - us.length - 1, by omega⟩
      rw [hm, List.replicate_succ, List.set_cons_zero]
      have hm' : xs.length - (us ++ [a]).length = m := by simp; omega
      rw [hm']
      simp
    · simp

/-- Writing the same value `c` times from position `k` on. -/
theorem forN_put (w P : List XR) (k c : ℕ) (a : XR) (hP : P.length = k) (hk : k ≤ w.length) :
    forN c (fun _ (s : List XR × Nat) => do
      let (wd, count2) := s
      let wd ← wr wd count2 a
      return (wd, count2 + 1)) (P ++ w.drop k, k) =
    if k + c ≤ w.length then ok (P ++ List.replicate c a ++ w.drop (k + c), k + c) else ub := by
  induction c with
  | zero => simp [hk]
  | succ c ih =>
    rw [forN_succ, ih]
    split
    · rename_i h
      rw [ok_bind]
      dsimp only
      split
      · rename_i h2
        rw [wr_lt _ (by simp; omega), ok_bind, pure_eq]
        congr 2
        rw [List.set_append_right _ _ (by simp; omega), List.length_append, hP,
          List.length_replicate, Nat.sub_self, List.drop_eq_getElem_cons (by omega),
          List.set_cons_zero, List.replicate_succ']
        simp [Nat.add_assoc]
      · rw [wr_ge _ (by simp; omega), ub_bind]
    · rename_i h
      rw [ub_bind, if_neg (by omega)]

/-- The write-back loop of `zsl_vec_sort`. -/
theorem forN_putAll (S : List ℝ) (g : ℝ → ℕ) (ud w : List XR) (vc : XR → Out Nat)
    (hvc : ∀ a : ℝ, vc (XR.fin a) = ok (g a))
    (hud : ∀ i (hi : i < S.length), ud[i]? = some (XR.fin S[i])) :
    forN S.length (fun i (s : List XR × Nat) => do
      let a ← rd ud i
      let c ← vc a
      forN c (fun _ (s : List XR × Nat) => do
        let (wd, count2) := s
        let wd ← wr wd count2 a
        return (wd, count2 + 1)) s) (w, 0) =
    if (S.flatMap fun a => List.replicate (g a) a).length ≤ w.length then
      ok ((S.flatMap fun a => List.replicate (g a) a).map XR.fin ++
        w.drop (S.flatMap fun a => List.replicate (g a) a).length,
        (S.flatMap fun a => List.replicate (g a) a).length) else ub := by
  induction S using List.reverseRecOn with
  | nil => simp
  | append_singleton S b ih =>
    rw [List.length_append, List.length_singleton, forN_succ, ih (fun i hi => by
      rw [hud i (by simp; omega), List.getElem_append_left hi])]
    have hb : ud[S.length]? = some (XR.fin b) := by
      rw [hud S.length (by simp)]
      simp
    rw [List.flatMap_append]
    generalize hW : (S.flatMap fun a => List.replicate (g a) a) = W
    simp only [List.flatMap_cons, List.flatMap_nil, List.append_nil, List.length_append,
      List.length_replicate]
    split
    · rename_i h
      rw [ok_bind, rd_of hb, ok_bind, hvc, ok_bind, forN_put w _ _ _ _ (by simp) h]
      simp
    · rw [ub_bind, if_neg (by omega)]

/-- The quicksort on the de-duplicated buffer. -/
theorem quicksort_list (us : List ℝ) (rest : List XR) (fuel : ℕ) (h1 : 0 < us.length)
    (hr : rest ≠ []) (hsz : us.length + rest.length < SIZE_MOD) (hnd : us.Nodup)
    (hfuel : 2 * us.length ≤ fuel) :
    ∃ ud, vecQuicksort fuel (us.map XR.fin ++ rest) 0 (us.length - 1) = ok ud ∧
      ∀ i (hi : i < (us.insertionSort (· ≤ ·)).length),
        ud[i]? = some (XR.fin (us.insertionSort (· ≤ ·))[i]) := by
  set f : ℕ → ℝ := fun k => us.getD k 0 with hf
  have hfk : ∀ k (hk : k < us.length), f k = us[k] := by
    intro k hk
    simp [hf, List.getD_eq_getElem?_getD, hk]
  have hH : Holds1 (us.map XR.fin ++ rest) f 0 (us.length - 1) := by
    intro k _ hk
    have : k < us.length := by omega
    rw [List.getElem?_append_left (by simpa using this), hfk k this]
    simp [this]
  have hrest : 0 < rest.length := List.length_pos_of_ne_nil hr
  obtain ⟨ud, hud, σ, hP, hs⟩ := quicksort_spec fuel hH (by simp; omega) (by simp; omega)
    (by
      intro a b _ ha _ hb hab
      rw [hfk a (by omega), hfk b (by omega)] at hab
      exact (List.Nodup.getElem_inj_iff hnd).1 hab) (by omega)
  refine ⟨ud, hud, ?_⟩
  have hσ : ∀ k, k < us.length ↔ σ k < us.length := by
    intro k
    constructor
    · intro hk
      have := hP.mem (k := k) ⟨by omega, by omega⟩
      omega
    · intro hk
      by_contra hc
      rw [hP.fix k (by omega)] at hk
      exact hc hk
  let τ : Equiv.Perm (Fin us.length) :=
    ⟨fun k => ⟨σ k, (hσ k).1 k.2⟩, fun k => ⟨σ.symm k, (hσ _).2 (by simp)⟩,
      fun k => by simp, fun k => by simp⟩
  have hSperm : (List.ofFn ((fun k : Fin us.length => us[k]) ∘ τ)).Perm us := by
    have := τ.ofFn_comp_perm (fun k : Fin us.length => us[k])
    rwa [show List.ofFn (fun k : Fin us.length => us[k]) = us from List.ofFn_getElem] at this
  have hS : List.ofFn ((fun k : Fin us.length => us[k]) ∘ τ) = us.insertionSort (· ≤ ·) := by
    refine List.Perm.eq_of_pairwise' (r := (· ≤ ·)) ?_ (List.pairwise_insertionSort _ _)
      (hSperm.trans (List.perm_insertionSort _ _).symm)
    rw [List.pairwise_ofFn]
    intro i j hij
    have := hs i j (by omega) hij (by omega)
    rw [hfk _ ((hσ i).1 i.2), hfk _ ((hσ j).1 j.2)] at this
    exact this.le
  intro i hi
  have hi' : i < us.length := by simpa using hi
  rw [hP.get, hH _ (by omega) (by have := (hσ i).1 hi'; omega), hfk _ ((hσ i).1 hi')]
  congr 2
  rw [← List.getElem_of_eq hS (by simpa using hi')]
  simp [τ]

/-- C12, exact behaviour on finite data: provided a cell behind the work buffer may be read or some value repeats
within the tolerance, `zsl_vec_sort` terminates and writes exactly `sortOut`; it overruns `w` if that is longer
than the buffer of `w`. -/
theorem vec_sort_exact (xs : List ℝ) (vrest extra : List XR) (w : Vec XR) (fuel : ℕ) (h1 : xs ≠ [])
    (hfuel : 2 * xs.length ≤ fuel) (hsz : xs.length + extra.length < SIZE_MOD)
    (hex : extra ≠ [] ∨ (sortAll xs).length < xs.length) :
    vecSort fuel extra ⟨xs.length, xs.map XR.fin ++ vrest⟩ w =
      if (sortOut xs).length ≤ w.data.length then
        ok (0, ⟨w.sz, (sortOut xs).map XR.fin ++ w.data.drop (sortOut xs).length⟩)
      else ub := by
  unfold vecSort
  dsimp only
  have hlen := sortAll_length xs
  have hpos := sortAll_pos xs h1
  rw [sortDedup_eq, ok_bind]
  dsimp only
  have h0 : vecContains ⟨xs.length, xs.map XR.fin ++ vrest⟩ (lit 0) (lit 1e-5) =
      ok (xs.countP fun b => decide (|b| < 1e-5)) := by
    have := vecContains_list xs vrest xs.length rfl 0
    simp only [sub_zero] at this
    rw [← this, XR.lit_eq]
    simp
  rw [h0, ok_bind]
  have hcount : (if xs.countP (fun b => decide (|b| < 1e-5)) > 0 then (sortReps xs).length + 1
      else (sortReps xs).length) = (sortAll xs).length := by
    unfold sortAll
    have : xs.countP (fun b => decide (|b| < 1e-5)) > 0 ↔ ∃ a ∈ xs, |a| < 1e-5 := by
      rw [gt_iff_lt, List.countP_pos_iff]
      simp
    by_cases h : ∃ a ∈ xs, |a| < 1e-5
    · rw [if_pos (this.2 h), if_pos h]
      simp
    · rw [if_neg (fun hc => h (this.1 hc)), if_neg h]
      simp
  rw [hcount]
  have hbuf : ∃ rest : List XR, (sortReps xs).map XR.fin ++
      (List.replicate (xs.length - (sortReps xs).length) (lit 0) ++ extra) =
      (sortAll xs).map XR.fin ++ rest ∧ rest ≠ [] ∧
      (sortAll xs).length + rest.length = xs.length + extra.length := by
    refine ⟨List.replicate (xs.length - (sortAll xs).length) (lit 0) ++ extra, ?_, ?_, ?_⟩
    · unfold sortAll at hlen ⊢
      by_cases h : ∃ a ∈ xs, |a| < 1e-5
      · rw [if_pos h] at hlen ⊢
        simp only [List.length_append, List.length_singleton] at hlen
        obtain ⟨m, hm⟩ : ∃ m, xs.length - (sortReps xs).length = m + 1 :=
          ⟨xs.length - (sortReps xs).length - 1, by omega⟩
        have hm' : xs.length - (sortReps xs ++ [0]).length = m := by
          rw [List.length_append, List.length_singleton]
          omega
        rw [hm, hm', List.replicate_succ]
        simp [XR.lit_eq]
      · rw [if_neg h]
        simp
    · rcases hex with h | h
      · exact fun hc => h (List.append_eq_nil_iff.1 hc).2
      · intro hc
        have := (List.append_eq_nil_iff.1 hc).1
        rw [List.replicate_eq_nil_iff] at this
        omega
    · simp
      omega
  obtain ⟨rest, hb, hne, hl⟩ := hbuf
  have hsub : szSub (sortAll xs).length 1 = (sortAll xs).length - 1 := szSub_le (by omega)
  obtain ⟨ud, hud, hget⟩ := quicksort_list (sortAll xs) rest fuel hpos hne (by omega)
    (sortAll_nodup xs) (by omega)
  rw [hb, hsub, hud, ok_bind]
  have hput := forN_putAll ((sortAll xs).insertionSort (· ≤ ·))
    (fun a => xs.countP fun b => decide (|b - a| < 1e-5)) ud w.data
    (fun a => vecContains ⟨xs.length, xs.map XR.fin ++ vrest⟩ a (lit 1e-5))
    (fun a => vecContains_list xs vrest xs.length rfl a) hget
  rw [List.length_insertionSort] at hput
  rw [hput]
  unfold sortOut
  split <;> rfl

/-- Data separated by the tolerance of the code: two elements are equal or at least `10⁻⁵` apart, and so are
elements and zero. -/
def Separated (xs : List ℝ) : Prop :=
  (∀ a ∈ xs, ∀ b ∈ xs, a = b ∨ 1e-5 ≤ |a - b|) ∧ ∀ a ∈ xs, a = 0 ∨ 1e-5 ≤ |a|

theorem Separated.near {xs : List ℝ} (h : Separated xs) {a b : ℝ} (ha : a ∈ xs) (hb : b ∈ xs) :
    |b - a| < 1e-5 ↔ b = a := by
  constructor
  · intro hlt
    rcases h.1 b hb a ha with h | h
    · exact h
    · exact absurd hlt (not_lt.2 h)
  · rintro rfl
    norm_num

theorem Separated.near_zero {xs : List ℝ} (h : Separated xs) {a : ℝ} (ha : a ∈ xs) :
    |a| < 1e-5 ↔ a = 0 := by
  constructor
  · intro hlt
    rcases h.2 a ha with h | h
    · exact h
    · exact absurd hlt (not_lt.2 h)
  · rintro rfl
    norm_num

theorem Separated.mem_all {xs : List ℝ} (h : Separated xs) (a : ℝ) : a ∈ sortAll xs ↔ a ∈ xs := by
  unfold sortAll
  rw [List.mem_append]
  constructor
  · rintro (ha | ha)
    · exact (sortReps_sub xs a ha).1
    · split at ha
      · rename_i hex
        obtain ⟨b, hb, hlt⟩ := hex
        rw [List.mem_singleton] at ha
        rw [h.near_zero hb] at hlt
        rw [ha, ← hlt]
        exact hb
      · simp at ha
  · intro ha
    rcases sortReps_cover xs a ha with h0 | ⟨u, hu, hlt⟩
    · right
      rw [if_pos ⟨a, ha, h0⟩]
      simpa using (h.near_zero ha).1 h0
    · left
      rw [h.near ha (sortReps_sub xs u hu).1] at hlt
      rwa [← hlt]

/-- Repeating every element of the sorted list of distinct values gives the sorted list. -/
theorem sortOut_separated {xs : List ℝ} (h : Separated xs) :
    (sortOut xs).Perm xs ∧ (sortOut xs).Pairwise (· ≤ ·) := by
  classical
  have hmem : ∀ a, a ∈ (sortAll xs).insertionSort (· ≤ ·) ↔ a ∈ xs := by
    intro a
    rw [List.mem_insertionSort, h.mem_all]
  have hnd : ((sortAll xs).insertionSort (· ≤ ·)).Nodup :=
    (List.perm_insertionSort _ _).nodup_iff.2 (sortAll_nodup xs)
  constructor
  · rw [List.perm_iff_count]
    intro a
    unfold sortOut
    rw [List.count_flatMap]
    by_cases ha : a ∈ xs
    · have hcnt : ∀ b ∈ (sortAll xs).insertionSort (· ≤ ·),
          (List.count a ∘ fun b => List.replicate (xs.countP fun c => decide (|c - b| < 1e-5)) b) b =
            if b = a then xs.count a else 0 := by
        intro b hb
        simp only [Function.comp, List.count_replicate, beq_iff_eq]
        split
        · rename_i hba
          subst hba
          rw [List.count]
          apply List.countP_congr
          intro c hc
          simp only [decide_eq_true_eq, beq_iff_eq]
          exact h.near ha hc
        · rfl
      rw [List.map_congr_left hcnt]
      have : ∀ l : List ℝ, l.Nodup → a ∈ l →
          (l.map fun b => if b = a then xs.count a else 0).sum = xs.count a := by
        intro l hl hal
        induction l with
        | nil => simp at hal
        | cons c l ih =>
          rw [List.map_cons, List.sum_cons]
          rw [List.nodup_cons] at hl
          by_cases hca : c = a
          · subst hca
            rw [if_pos rfl, List.sum_eq_zero, add_zero]
            intro x hx
            rw [List.mem_map] at hx
            obtain ⟨b, hb, rfl⟩ := hx
            rw [if_neg]
            rintro rfl
            exact hl.1 hb
          · rw [if_neg hca, zero_add]
            exact ih hl.2 (by simpa [Ne.symm hca] using hal)
      exact this _ hnd ((hmem a).2 ha)
    · rw [List.count_eq_zero_of_not_mem ha, List.sum_eq_zero]
      intro x hx
      rw [List.mem_map] at hx
      obtain ⟨b, hb, rfl⟩ := hx
      simp only [Function.comp, List.count_replicate, beq_iff_eq]
      rw [if_neg]
      rintro rfl
      exact ha ((hmem b).1 hb)
  · unfold sortOut
    have hs := List.pairwise_insertionSort (· ≤ · : ℝ → ℝ → Prop) (sortAll xs)
    generalize (sortAll xs).insertionSort (· ≤ ·) = l at hs
    clear hmem hnd
    induction l with
    | nil => simp
    | cons c l ih =>
      rw [List.flatMap_cons, List.pairwise_append]
      rw [List.pairwise_cons] at hs
      refine ⟨List.pairwise_replicate_of_refl, ih hs.2, ?_⟩
      intro a ha b hb
      rw [List.mem_replicate] at ha
      rw [List.mem_flatMap] at hb
      obtain ⟨d, hd, hb⟩ := hb
      rw [List.mem_replicate] at hb
      rw [ha.2, hb.2]
      exact hs.1 d hd

/-- C12 `_partial`: `zsl_vec_sort` terminates and leaves in the first `sz` cells of `w` the elements of `v` in ascending
order, and changes nothing else. Missing: data with distinct elements closer than `10⁻⁵`, empty vectors, and, in strict
C, vectors without a repeated element (there `extra` must not be empty: the code reads a cell behind its work buffer). -/
theorem vec_sort_partial {n : ℕ} (v w : Vec XR) (x : Fin n → ℝ) (extra : List XR) (fuel : ℕ)
    (hv : v.Is x) (h1 : 1 ≤ n) (hw : n ≤ w.data.length) (hfuel : 2 * n ≤ fuel)
    (hsz : n + extra.length < SIZE_MOD)
    (hsep : Separated (List.ofFn x)) (hex : extra ≠ [] ∨ ¬ Function.Injective x) :
    ∃ l : List ℝ, l.Perm (List.ofFn x) ∧ l.Pairwise (· ≤ ·) ∧
      vecSort fuel extra v w = ok (0, ⟨w.sz, l.map XR.fin ++ w.data.drop n⟩) := by
  obtain ⟨hp, hs⟩ := sortOut_separated hsep
  refine ⟨_, hp, hs, ?_⟩
  have hvd : v = ⟨(List.ofFn x).length, (List.ofFn x).map XR.fin ++ v.data.drop v.sz⟩ := by
    rw [← hv.vals, Vec.vals, List.take_append_drop, List.length_ofFn, ← hv.1]
  have hl := hp.length_eq
  rw [List.length_ofFn] at hl
  rw [hvd, vec_sort_exact _ _ _ _ _ (by
    intro h
    have := congrArg List.length h
    simp at this
    omega) (by simpa using hfuel) (by simpa using hsz) ?_, if_pos (by omega), hl]
  rcases hex with h | h
  · exact Or.inl h
  · right
    refine lt_of_le_of_ne (sortAll_length _) fun hc => h ?_
    rw [← List.nodup_ofFn]
    have hsub : (sortAll (List.ofFn x)).Subperm (List.ofFn x) :=
      (sortAll_nodup _).subperm fun a ha => (hsep.mem_all a).1 ha
    have hperm := hsub.perm_of_length_le hc.ge
    exact hperm.nodup_iff.1 (sortAll_nodup _)

/-- C12, negation: for two elements in descending order the code reads behind the end of its work buffer, whatever the
recursion budget. -/
theorem vec_sort_overread (fuel : ℕ) (w : Vec XR) :
    vecSort fuel [] ⟨2, [XR.fin 2, XR.fin 1]⟩ w = ub := by
  unfold vecSort
  dsimp only
  have hr : sortReps [2, 1] = [2, 1] := by
    simp only [sortReps, List.foldl]
    norm_num [abs_of_pos]
  have hd := sortDedup_eq [2, 1] [] []
  rw [hr] at hd
  have h0 := vecContains_list [2, 1] [] 2 rfl 0
  have hc : ([2, 1] : List ℝ).countP (fun b => decide (|b - 0| < 1e-5)) = 0 := by
    rw [List.countP_eq_zero]
    norm_num [abs_of_pos]
  rw [hc] at h0
  have hl0 : (lit 0 : XR) = XR.fin 0 := by rw [XR.lit_eq]; simp
  simp only [List.map_cons, List.map_nil, List.length_cons, List.length_nil, Nat.sub_self,
    List.append_nil, List.replicate_zero] at hd h0
  simp only [List.append_nil]
  rw [hd, ok_bind]
  dsimp only
  rw [hl0, h0, ok_bind, if_neg (by omega)]
  have hsub : szSub 2 1 = 1 := szSub_le (by omega)
  rw [hsub]
  have hq : vecQuicksort fuel [XR.fin 2, XR.fin 1] 0 1 = ub := by
    cases fuel with
    | zero => rfl
    | succ fuel =>
      rw [vecQuicksort, if_pos (by omega), qsPartition, if_pos (by omega)]
      have : qsUp [XR.fin 2, XR.fin 1] 0 1 0 = ub := by
        rw [qsUp, rd_lt (by simp)]
        simp only [List.getElem_cons_zero, ok_bind, XR.fin_le]
        rw [if_pos (by norm_num), qsUp, rd_lt (by simp), rd_lt (by simp)]
        simp only [List.getElem_cons_zero, List.getElem_cons_succ, ok_bind, XR.fin_le]
        rw [if_pos (by norm_num), qsUp, rd_ge (by simp), ub_bind]
      rw [this, ub_bind, ub_bind]
  rw [hq, ub_bind]

/-- C12, negation: three values closer than the tolerance, but not all to each other, make the code write four elements
into an output of three. -/
theorem vec_sort_overrun (fuel : ℕ) (extra : List XR) (w : Vec XR) (hw : w.data.length = 3)
    (hfuel : 6 ≤ fuel) (hsz : extra.length < 1000) :
    vecSort fuel extra ⟨3, [2, 2 + 6e-6, 2 + 12e-6].map XR.fin⟩ w = ub := by
  have hr : sortReps [2, 2 + 6e-6, 2 + 12e-6] = [2, 2 + 12e-6] := by
    simp only [sortReps, List.foldl]
    norm_num [abs_of_pos, abs_lt]
  have ha : sortAll [2, 2 + 6e-6, 2 + 12e-6] = [2, 2 + 12e-6] := by
    unfold sortAll
    rw [hr, if_neg]
    · simp
    · norm_num [abs_of_pos]
  have ho : (sortOut [2, 2 + 6e-6, 2 + 12e-6]).length = 4 := by
    unfold sortOut
    rw [ha, List.Pairwise.insertionSort_eq (by norm_num)]
    simp only [List.flatMap_cons, List.flatMap_nil, List.length_append, List.length_replicate,
      List.length_nil, List.countP_cons, List.countP_nil, decide_eq_true_eq]
    norm_num [abs_of_pos, abs_lt]
  have := vec_sort_exact [2, 2 + 6e-6, 2 + 12e-6] [] extra w fuel (by simp) (by simpa using hfuel)
    (by rw [SIZE_MOD_eq]; simp; omega) (Or.inr (by rw [ha]; simp))
  rw [ho, hw, if_neg (by omega), List.append_nil] at this
  exact this

/-- C12, negation: the empty vector. -/
theorem vec_sort_empty (fuel : ℕ) (w : Vec XR) : vecSort fuel [] ⟨0, []⟩ w = ub := by
  have h1 : szSub 0 1 = SIZE_MOD - 1 := by
    unfold szSub
    rw [if_neg (by omega)]
  unfold vecSort sortDedup vecContains
  simp only [forN_zero, ok_bind, List.replicate_zero, List.append_nil]
  rw [if_neg (by omega), h1]
  cases fuel with
  | zero => rfl
  | succ fuel =>
    rw [vecQuicksort, if_pos (by rw [SIZE_MOD_eq]; omega), qsPartition,
      if_pos (by rw [SIZE_MOD_eq]; omega), qsUp, rd_ge (by simp)]
    rfl

/-- Non-vacuity: repeated values, a zero, strict C (`extra = []`). -/
example : ∃ (v : Vec XR) (x : Fin 4 → ℝ), v.Is x ∧ Separated (List.ofFn x) ∧
    ¬ Function.Injective x ∧ x 0 > x 1 := by
  refine ⟨_, ![3, 0, 3, -1], Vec.is_ofFn _, ⟨?_, ?_⟩, ?_, by norm_num⟩
  · norm_num [abs_of_pos, List.ofFn_succ, Matrix.vecHead, Matrix.vecTail]
  · norm_num [abs_of_pos, List.ofFn_succ, Matrix.vecHead, Matrix.vecTail]
  · intro h
    have := @h 0 2 (by simp)
    simp at this

end Verif
