import Verif.Lemmas.Minors

/-!
# Properties of matrices: minors and augmentation (C21)

`n < SIZE_MOD` says that the size is a `size_t`.
-/

set_option linter.unusedSectionVars false

namespace Verif

open Out

variable {R : Type} [CReal R] {n k : ℕ}

/-! ## C21: minors and augmentation -/

/-- C21. `zsl_mtx_reduce` deletes row `i` and column `j`. (`succAbove i` enumerates the indices other than `i` in order.) -/
theorem mtx_reduce_correct (junk : ℕ → R) (x0 : R) (A : Matrix (Fin (n + 1)) (Fin (n + 1)) R)
    (B : Matrix (Fin n) (Fin n) R) (t u : List R) (i j : Fin (n + 1)) (hn : 0 < n) :
    mtxReduce junk x0 (mtxOf A t) (mtxOf B u) i j =
      ok (0, mtxOf (A.submatrix i.succAbove j.succAbove) u) := by
  rw [mtxOf_eq, mtxOf_eq, mkM_reduce _ _ _ _ _ _ hn i.2 j.2, mkM_eq_mtxOf]
  intro a b
  rw [skip_succAbove, skip_succAbove, ext_fin]
  rfl

/-- C21. A wrong output shape, or an index out of range, is refused without writing. -/
theorem mtx_reduce_refused (junk : ℕ → R) (x0 : R) (m mr : Mtx R) (i j : ℕ) (h0 : 0 < mr.rows)
    (hr : 0 < m.rows) (hc : 0 < m.cols)
    (h : mr.rows ≠ m.rows - 1 ∨ mr.cols ≠ m.cols - 1 ∨ m.rows ≤ i ∨ m.cols ≤ j) :
    mtxReduce junk x0 m mr i j = ok (-EINVAL, mr) := by
  unfold mtxReduce
  rw [if_neg (by omega), szSub_le (by omega), szSub_le (by omega)]
  split_ifs with h1 h2 h3
  · rfl
  · rfl
  · rfl
  · omega

/-- Non-vacuity: deleting row 1 and column 0 of a 3x3 matrix. -/
example (junk : ℕ → XR) (B : Matrix (Fin 2) (Fin 2) XR) (u : List XR) :
    mtxReduce junk (lit 0) (mat !![1, 2, 3; 4, 5, 6; 7, 8, 9] []) (mtxOf B u) 1 0 =
      ok (0, mat !![2, 3; 8, 9] u) := by
  have := mtx_reduce_correct junk (lit 0) (Matrix.map !![1, 2, 3; 4, 5, 6; 7, 8, 9] XR.fin) B [] u 1 0
    (by omega)
  refine this.trans ?_
  unfold mat
  congr 3
  funext i j
  fin_cases i <;> fin_cases j <;> rfl

theorem mtxOf_mk_of_length {d : List R} (hd : k * k ≤ d.length) :
    ∃ f, (⟨k, k, d⟩ : Mtx R) = mkM k k f (d.drop (k * k)) := by
  obtain ⟨f, hf⟩ := mkD_of_length (r := k) (c := k) d hd
  exact ⟨f, by unfold mkM; rw [← hf]⟩

theorem mkM_copy {r c : ℕ} (f g : ℕ → ℕ → R) (t u : List R) :
    mtxCopy (mkM r c g u) (mkM r c f t) = ok (0, mkM r c f u) := by
  rw [mkM_eq r c g u, mkM_eq r c f t, mkM_eq r c f u]
  exact mtx_copy_correct _ _ _ _

/-- `zsl_mtx_reduce_iter` when the requested size is reached. -/
theorem reduceIter_done (junk : ℕ → R) (x0 : R) (m place1 : Mtx R) (s : ReduceState R) (mred : Mtx R)
    (h1 : (do
      if m.rows = s.place1.rows then do
        let (_, p) ← mtxCopy s.place1 m
        return p
      else return s.place1) = ok place1) (h2 : place1.rows = s.mred.rows)
    (h3 : mtxCopy s.mred place1 = ok (0, mred)) :
    mtxReduceIter junk x0 m s = ok (0, ⟨mred, { place1 with rows := m.rows, cols := m.cols },
      { s.place2 with rows := m.rows, cols := m.cols }⟩) := by
  unfold mtxReduceIter
  rw [h1, ok_bind, if_pos h2, h3]
  rfl

/-- `zsl_mtx_reduce_iter` when the requested size is not reached. -/
theorem reduceIter_again (junk : ℕ → R) (x0 : R) (m place1 place2 place1' : Mtx R) (s : ReduceState R)
    (h1 : (do
      if m.rows = s.place1.rows then do
        let (_, p) ← mtxCopy s.place1 m
        return p
      else return s.place1) = ok place1) (h2 : place1.rows ≠ s.mred.rows)
    (h3 : mtxReduce junk x0 place1
      { s.place2 with rows := szSub place1.rows 1, cols := szSub place1.cols 1 } 0 0 = ok (0, place2))
    (h4 : mtxCopy { place1 with rows := szSub place1.rows 1, cols := szSub place1.cols 1 } place2 =
      ok (0, place1')) :
    mtxReduceIter junk x0 m s = ok (-EAGAIN, ⟨s.mred, place1', place2⟩) := by
  unfold mtxReduceIter
  rw [h1, ok_bind, if_neg h2]
  simp only [h3, ok_bind, h4, pure_eq]

/-- The copy of the input into the first work matrix. -/
theorem reduceIter_start (f : ℕ → ℕ → R) (t d1 : List R) (hkn : k ≤ n) (hl1 : n * n ≤ d1.length)
    (hd1 : k < n → ∃ t', d1 = mkD k k (fun a b => f (n - k + a) (n - k + b)) t') :
    ∃ t', (mkD k k (fun a b => f (n - k + a) (n - k + b)) t').length = d1.length ∧
      (do
        if (mkM n n f t).rows = (⟨k, k, d1⟩ : Mtx R).rows then do
          let (_, p) ← mtxCopy ⟨k, k, d1⟩ (mkM n n f t)
          return p
        else return (⟨k, k, d1⟩ : Mtx R)) = ok (mkM k k (fun a b => f (n - k + a) (n - k + b)) t') := by
  rcases Nat.lt_or_eq_of_le hkn with hlt | rfl
  · obtain ⟨t', rfl⟩ := hd1 hlt
    refine ⟨t', rfl, ?_⟩
    rw [if_neg (by simp only [mkM_rows]; omega)]
    rfl
  · obtain ⟨w, hw⟩ := mtxOf_mk_of_length (k := k) hl1
    refine ⟨d1.drop (k * k), by simp; omega, ?_⟩
    rw [if_pos (by rfl), hw, mkM_copy]
    simp only [ok_bind, pure_eq, Nat.sub_self, Nat.zero_add]

/-- The loop of `zsl_mtx_reduce_iter` calls, from any point on. -/
theorem reduceLoop_spec (junk : ℕ → R) (x0 : R) (f : ℕ → ℕ → R) (t u : List R) (g : ℕ) (hg : 0 < g) :
    ∀ (e k fuel : ℕ) (h : ℕ → ℕ → R) (d1 d2 : List R) (r2 c2 : ℕ), k = g + e → k ≤ n → e < fuel →
      n * n ≤ d1.length → n * n ≤ d2.length →
      (k < n → ∃ t', d1 = mkD k k (fun a b => f (n - k + a) (n - k + b)) t') →
      ∃ d1' d2' : List R, d1'.length = d1.length ∧ d2'.length = d2.length ∧
        mtxReduceLoop fuel junk x0 (mkM n n f t) ⟨mkM g g h u, ⟨k, k, d1⟩, ⟨r2, c2, d2⟩⟩ =
          ok ⟨mkM g g (fun a b => f (n - g + a) (n - g + b)) u, ⟨n, n, d1'⟩, ⟨n, n, d2'⟩⟩ := by
  intro e
  induction e with
  | zero =>
    intro k fuel h d1 d2 r2 c2 hk hkn hfuel hl1 hl2 hd1
    obtain ⟨fuel, rfl⟩ := Nat.exists_eq_succ_of_ne_zero (by omega : fuel ≠ 0)
    obtain rfl : k = g := by omega
    obtain ⟨t', hl, hs⟩ := reduceIter_start f t d1 hkn hl1 hd1
    refine ⟨mkD k k (fun a b => f (n - k + a) (n - k + b)) t', d2, hl, rfl, ?_⟩
    rw [mtxReduceLoop, reduceIter_done junk x0 _ _ ⟨mkM k k h u, ⟨k, k, d1⟩, ⟨r2, c2, d2⟩⟩ _ hs rfl
      (mkM_copy _ _ _ _)]
    rfl
  | succ e ih =>
    intro k fuel h d1 d2 r2 c2 hk hkn hfuel hl1 hl2 hd1
    obtain ⟨fuel, rfl⟩ := Nat.exists_eq_succ_of_ne_zero (by omega : fuel ≠ 0)
    obtain ⟨t', hl, hs⟩ := reduceIter_start f t d1 hkn hl1 hd1
    obtain ⟨k, rfl⟩ := Nat.exists_eq_succ_of_ne_zero (by omega : k ≠ 0)
    rw [Nat.succ_eq_add_one] at *
    have hkk : k * k ≤ n * n := Nat.mul_le_mul (by omega) (by omega)
    obtain ⟨w2, hw2⟩ := mtxOf_mk_of_length (k := k) (d := d2) (by omega)
    have hred := mkM_reduce junk x0 (n := k) (fun a b => f (n - (k + 1) + a) (n - (k + 1) + b)) w2 t'
      (d2.drop (k * k)) (i := 0) (j := 0) (by omega) (by omega) (by omega)
    have hblk : mkM k k (fun a b => f (n - (k + 1) + skip 0 a) (n - (k + 1) + skip 0 b)) (d2.drop (k * k)) =
        mkM k k (fun a b => f (n - k + a) (n - k + b)) (d2.drop (k * k)) := by
      apply mkM_congr
      intro a _ b _
      simp only [skip, Nat.not_lt_zero, if_false]
      congr 1 <;> omega
    rw [hblk] at hred
    have hsub : szSub (k + 1) 1 = k := szSub_le (by omega)
    have hcopy : ∃ t'', (mkD k k (fun a b => f (n - k + a) (n - k + b)) t'').length = d1.length ∧
        mtxCopy ⟨k, k, mkD (k + 1) (k + 1) (fun a b => f (n - (k + 1) + a) (n - (k + 1) + b)) t'⟩
          (mkM k k (fun a b => f (n - k + a) (n - k + b)) (d2.drop (k * k))) =
        ok (0, mkM k k (fun a b => f (n - k + a) (n - k + b)) t'') := by
      obtain ⟨w1, hw1⟩ := mtxOf_mk_of_length (k := k)
        (d := mkD (k + 1) (k + 1) (fun a b => f (n - (k + 1) + a) (n - (k + 1) + b)) t')
        (by rw [hl]; omega)
      refine ⟨_, ?_, by rw [hw1, mkM_copy]⟩
      rw [mkD_length, List.length_drop, hl]
      omega
    obtain ⟨t'', hl'', hc⟩ := hcopy
    obtain ⟨d1', d2', hl1', hl2', hres⟩ := ih k fuel h
      (mkD k k (fun a b => f (n - k + a) (n - k + b)) t'')
      (mkD k k (fun a b => f (n - k + a) (n - k + b)) (d2.drop (k * k))) k k
      (by omega) (by omega) (by omega) (by omega) (by rw [mkD_length, List.length_drop]; omega)
      (fun _ => ⟨_, rfl⟩)
    refine ⟨d1', d2', by omega, by rw [hl2', mkD_length, List.length_drop]; omega, ?_⟩
    rw [mtxReduceLoop, reduceIter_again junk x0 _ _ _ _
      ⟨mkM g g h u, ⟨k + 1, k + 1, d1⟩, ⟨r2, c2, d2⟩⟩ hs (by simp only [mkM_rows]; omega)
      (by simp only [mkM_rows, mkM_cols, hsub]; rw [hw2, hred])
      (by simp only [mkM_rows, mkM_cols, mkM_data, hsub]; rw [hc])]
    simp only [ok_bind, EAGAIN]
    rw [if_pos (by decide)]
    exact hres

/-- C21. Calling `zsl_mtx_reduce_iter` until it returns 0 takes `n - k + 1` calls, stores the lower-right `k × k` block in the
output, and restores the shapes of the two work matrices, so that the process can be repeated. -/
theorem mtx_reduce_iter_correct (junk : ℕ → R) (x0 : R) (A : Matrix (Fin n) (Fin n) R)
    (B : Matrix (Fin k) (Fin k) R) (t u d1 d2 : List R) (fuel : ℕ) (hk : 0 < k) (hkn : k ≤ n)
    (h1 : n * n ≤ d1.length) (h2 : n * n ≤ d2.length) (hfuel : n - k < fuel) :
    ∃ d1' d2' : List R, d1'.length = d1.length ∧ d2'.length = d2.length ∧
      mtxReduceLoop fuel junk x0 (mtxOf A t) ⟨mtxOf B u, ⟨n, n, d1⟩, ⟨n, n, d2⟩⟩ =
        ok ⟨mtxOf (A.submatrix (fun a : Fin k => (⟨n - k + a, by omega⟩ : Fin n))
          (fun b : Fin k => (⟨n - k + b, by omega⟩ : Fin n))) u, ⟨n, n, d1'⟩, ⟨n, n, d2'⟩⟩ := by
  obtain ⟨d1', d2', hl1, hl2, h⟩ := reduceLoop_spec junk x0 (ext A) t u k hk (n - k) n fuel (ext B)
    d1 d2 n n (by omega) le_rfl hfuel h1 h2 (fun h => absurd h (lt_irrefl _))
  refine ⟨d1', d2', hl1, hl2, ?_⟩
  rw [mtxOf_eq, mtxOf_eq, h, mkM_eq_mtxOf]
  intro a b
  rw [ext_lt _ (by omega) (by omega)]
  rfl

/-- C21. `zsl_mtx_augm_diag` embeds a `k × k` matrix as the lower-right block of the `n × n` identity. -/
theorem mtx_augm_diag_correct (x0 : R) (A : Matrix (Fin k) (Fin k) R) (B : Matrix (Fin n) (Fin n) R)
    (t u : List R) (hkn : k ≤ n) (hsz : n < SIZE_MOD) :
    mtxAugmDiag x0 (mtxOf A t) (mtxOf B u) = ok (0, mtxOf (Matrix.of fun (i j : Fin n) =>
      if h : n - k ≤ i.val ∧ n - k ≤ j.val then A ⟨i.val - (n - k), by omega⟩ ⟨j.val - (n - k), by omega⟩
      else if i = j then lit 1 else lit 0) u) := by
  unfold mtxAugmDiag
  simp only [mtxOf_rows]
  rw [mtx_init_identity, szSub_le hkn]
  simp only [ok_bind]
  have hloop : (forN k (fun i s =>
      forN k (fun j (s : R × Mtx R) => do
        let (x, maug) := s
        let (_, x) ← mtxGet (mtxOf A t) i j x
        let (_, maug) ← mtxSet maug (szAdd i (n - k)) (szAdd j (n - k)) x
        return (x, maug)) s)
      (x0, mtxOf (Matrix.of fun (i : Fin n) (j : Fin n) => if i.val = j.val then lit 1 else lit 0) u)).sat
      (fun s => s.2 = mkM n n (fun a b => if n - k ≤ a ∧ n - k ≤ b then ext A (a - (n - k)) (b - (n - k))
        else if a = b then lit 1 else lit 0) u) := by
    rw [mtxOf_eq A t]
    refine (forN_sat (fun i s => s.2 = mkM n n (fun a b =>
      if n - k ≤ a ∧ n - k ≤ b ∧ a - (n - k) < i then ext A (a - (n - k)) (b - (n - k))
        else if a = b then lit 1 else lit 0) u) ?_ ?_).mono ?_
    · dsimp only
      symm
      refine mkM_eq_mtxOf (r := n) (c := n) _ fun a b => ?_
      simp
    · rintro i hi ⟨x, m⟩ h1
      refine (forN_sat (fun j s => s.2 = mkM n n (fun a b =>
        if n - k ≤ a ∧ n - k ≤ b ∧ (a - (n - k) < i ∨ (a - (n - k) = i ∧ b - (n - k) < j)) then
          ext A (a - (n - k)) (b - (n - k)) else if a = b then lit 1 else lit 0) u) ?_ ?_).mono ?_
      · rw [h1]
        apply mkM_congr
        intro a _ b _
        simp
      · rintro j hj ⟨x, m⟩ h2
        dsimp only at h2 ⊢
        rw [h2, mkM_get _ _ _ hi hj]
        simp only [ok_bind]
        rw [szAdd_lt (by omega), szAdd_lt (by omega), mkM_set _ _ _ (by omega) (by omega)]
        simp only [ok_bind, pure_eq, sat_ok]
        apply mkM_congr
        intro a _ b _
        unfold upd
        by_cases hab : a = i + (n - k) ∧ b = j + (n - k)
        · obtain ⟨rfl, rfl⟩ := hab
          rw [if_pos ⟨rfl, rfl⟩, if_pos (by omega), Nat.add_sub_cancel, Nat.add_sub_cancel]
        · rw [if_neg hab]
          exact if_congr (by omega) rfl rfl
      · rintro ⟨x, m⟩ h2
        rw [h2]
        apply mkM_congr
        intro a _ b _
        exact if_congr (by omega) rfl rfl
    · rintro ⟨x, m⟩ h1
      rw [h1]
      apply mkM_congr
      intro a _ b _
      exact if_congr (by omega) rfl rfl
  obtain ⟨⟨x, m⟩, h1, h2⟩ := hloop
  rw [h1]
  simp only [ok_bind, pure_eq]
  dsimp only at h2
  rw [h2, mkM_eq_mtxOf]
  intro a b
  simp only [Matrix.of_apply]
  by_cases h : n - k ≤ a.val ∧ n - k ≤ b.val
  · rw [if_pos h, dif_pos h, ext_lt _ (by omega) (by omega)]
  · rw [if_neg h, dif_neg h]
    simp only [Fin.ext_iff]

end Verif
