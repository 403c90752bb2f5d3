import Verif.Props.Safe4c

/-!
# Minors of matrices that are not square (C116)

The condition "square" of `mtx_reduce_safe` can be replaced by "not more columns than rows", and this is exact.
-/

set_option linter.unusedSectionVars false

namespace Verif

open Out

variable {R : Type} [CReal R]

/-- What is known after a loop that ended. -/
theorem forN_okinv {σ : Type} {n : ℕ} {f : ℕ → σ → Out σ} {s t : σ} (P : ℕ → σ → Prop) (h0 : P 0 s)
    (hs : ∀ i, i < n → ∀ a b, P i a → f i a = ok b → P (i + 1) b) (h : forN n f s = ok t) : P n t := by
  induction n generalizing t with
  | zero =>
    cases h
    exact h0
  | succ n ih =>
    rw [forN_succ] at h
    cases hf : forN n f s with
    | ub => rw [hf] at h; cases h
    | ok a =>
      rw [hf, ok_bind] at h
      exact hs n (by omega) a t (ih (fun i hi => hs i (by omega)) hf) h

/-- Copying more elements than an array has. -/
theorem memcpyAt_src_short {α : Type} {dst src : List α} {n : ℕ} (h : src.length < n) : memcpyAt dst 0 src 0 n = ub := by
  cases hm : memcpyAt dst 0 src 0 n with
  | ub => rfl
  | ok d =>
    have := forN_okinv (fun i _ => i ≤ src.length) (Nat.zero_le _) (by
      intro i _ a b _ hb
      by_contra hlt
      rw [rd_ge (by omega)] at hb
      cases hb) hm
    omega

/-- Specification: the number of indices below `k` other than `i`, the number of elements `zsl_mtx_reduce` (matrices.c:664-672) keeps. -/
def below (i k : ℕ) : ℕ := if i < k then k - 1 else k

theorem below_succ (i k : ℕ) : below i (k + 1) = if k = i then below i k else below i k + 1 := by
  unfold below
  split_ifs <;> omega

theorem below_lt {i k n : ℕ} (h : k ≠ i) (hk : k < n) (hi : i < n) : below i k < n - 1 := by
  unfold below
  split_ifs <;> omega

/-- matrices.c:664-672, the loops of `zsl_mtx_reduce`, as in `mtxReduce`. -/
def reduceLoops (m : Mtx R) (i j : ℕ) (s : ℕ × R × List R) : Out (ℕ × R × List R) :=
  forN m.rows (fun k (s : Nat × R × List R) =>
    forN m.rows (fun g (s : Nat × R × List R) => do
      let (u, x, v) := s
      if k ≠ i ∧ g ≠ j then do
        let (_, x) ← mtxGet m k g x
        let v ← wr v u x
        return (u + 1, x, v)
      else return (u, x, v)) s) s

theorem mtxReduce_loops (junk : ℕ → R) (x0 : R) (m mr : Mtx R) (i j : ℕ) (h0 : 0 < mr.rows) (hr : m.rows = mr.rows + 1) (hc : m.cols = mr.cols + 1)
    (hi : i < m.rows) (hj : j < m.cols) :
    mtxReduce junk x0 m mr i j = (do
      let (_, _, v) ← reduceLoops m i j (0, x0, junkArr junk (mr.rows * mr.rows))
      let (_, mr) ← mtxFromArr mr v
      return (0, mr)) := by
  unfold mtxReduce
  rw [if_neg (by omega), if_neg (by rw [szSub_le (by omega)]; omega), if_neg (by rw [szSub_le (by omega)]; omega), if_neg (by omega)]
  rfl

/-- The loops stay inside the local array if the column exists in the square part. -/
theorem reduceLoops_safe (m : Mtx R) (h : m.WF) (i j : ℕ) (x0 : R) (v0 : List R) (hi : i < m.rows) (hj : j < m.rows)
    (hv : (m.rows - 1) * (m.rows - 1) ≤ v0.length) :
    (reduceLoops m i j (0, x0, v0)).sat fun s => s.2.2.length = v0.length := by
  unfold reduceLoops
  have hW : below j m.rows = m.rows - 1 := if_pos hj
  refine (forN_sat (fun k s => s.1 = below i k * (m.rows - 1) ∧ s.2.2.length = v0.length) ⟨by simp [below], rfl⟩ ?_).mono fun s hs => hs.2
  rintro k hk ⟨u, x, v⟩ ⟨hu, hl⟩
  dsimp only at hu hl
  refine (forN_sat (fun g s => s.1 = below i k * (m.rows - 1) + (if k = i then 0 else below j g) ∧ s.2.2.length = v0.length)
    ⟨by simp [below, hu], hl⟩ ?_).mono ?_
  · rintro g hg ⟨u, x, v⟩ ⟨hu, hl⟩
    dsimp only at hu hl ⊢
    by_cases hkg : k ≠ i ∧ g ≠ j
    · rw [if_pos hkg]
      rw [if_neg hkg.1] at hu
      refine (mtx_get_safe m k g x h).bind ?_
      rintro ⟨_, y⟩ _
      dsimp only
      have := flat_lt (r := m.rows - 1) (c := m.rows - 1) (below_lt hkg.1 hk hi) (below_lt hkg.2 hg hj)
      rw [wr_lt y (by omega), ok_bind, pure_eq, sat_ok]
      refine ⟨?_, by simpa using hl⟩
      dsimp only
      rw [if_neg hkg.1, below_succ, if_neg hkg.2]
      omega
    · rw [if_neg hkg, pure_eq, sat_ok]
      refine ⟨?_, hl⟩
      dsimp only
      rw [hu, below_succ]
      by_cases hki : k = i
      · simp [hki]
      · rw [if_neg hki, if_neg hki, if_pos (by tauto)]
  · rintro ⟨u, x, v⟩ ⟨hu, hl⟩
    refine ⟨?_, hl⟩
    dsimp only at hu ⊢
    rw [hu, below_succ, hW]
    by_cases hki : k = i
    · simp [hki]
    · rw [if_neg hki, if_neg hki, Nat.succ_mul]

/-- What is known after the loops. -/
theorem reduceLoops_ok (m : Mtx R) (i j : ℕ) (x0 : R) (v0 : List R) (s : ℕ × R × List R) (h : reduceLoops m i j (0, x0, v0) = ok s) :
    s.1 = below i m.rows * below j m.rows ∧ s.1 ≤ s.2.2.length ∧ s.2.2.length = v0.length := by
  refine forN_okinv (fun k s => s.1 = below i k * below j m.rows ∧ s.1 ≤ s.2.2.length ∧ s.2.2.length = v0.length) ⟨by simp [below], by simp, rfl⟩ ?_ h
  rintro k hk a b ⟨h1, h2, h3⟩ hb
  have := forN_okinv (fun g s => s.1 = below i k * below j m.rows + (if k = i then 0 else below j g) ∧ s.1 ≤ s.2.2.length ∧
    s.2.2.length = v0.length) ⟨by simp [below, h1], h2, h3⟩ (by
      rintro g hg ⟨u, x, v⟩ b ⟨h1, h2, h3⟩ hb
      dsimp only at h1 h2 h3 hb
      by_cases hkg : k ≠ i ∧ g ≠ j
      · rw [if_pos hkg] at hb
        cases hget : mtxGet m k g x with
        | ub => rw [hget] at hb; cases hb
        | ok p =>
          obtain ⟨rc, y⟩ := p
          rw [hget, ok_bind] at hb
          dsimp only at hb
          by_cases hu : u < v.length
          · rw [wr_lt y hu] at hb
            cases hb
            dsimp only
            rw [below_succ, if_neg hkg.1, if_neg hkg.2]
            rw [if_neg hkg.1] at h1
            simp only [List.length_set]
            omega
          · rw [wr_ge y (by omega)] at hb
            cases hb
      · rw [if_neg hkg] at hb
        cases hb
        dsimp only
        refine ⟨?_, h2, h3⟩
        rw [h1, below_succ]
        by_cases hki : k = i
        · simp [hki]
        · rw [if_neg hki, if_neg hki, if_pos (by tauto)]) hb
  refine ⟨?_, this.2⟩
  rw [this.1, below_succ]
  by_cases hki : k = i
  · simp [hki]
  · rw [if_neg hki, if_neg hki, Nat.succ_mul]

/-- C116. `zsl_mtx_reduce` accepts every matrix whose shape exceeds that of the output by one row and one column. It stays within its buffers exactly when the
matrix has not more columns than rows: for a wide matrix it writes or reads past the end of the local array, which holds `rows * rows` elements of the
output. -/
theorem mtx_reduce_safe_iff (junk : ℕ → R) (x0 : R) (m mr : Mtx R) (i j : ℕ) (h : m.WF) (hmr : mr.WF) (h0 : 0 < mr.rows) (hr : m.rows = mr.rows + 1)
    (hc : m.cols = mr.cols + 1) (hi : i < m.rows) (hj : j < m.cols) : mtxReduce junk x0 m mr i j ≠ ub ↔ m.cols ≤ m.rows := by
  rw [mtxReduce_loops junk x0 m mr i j h0 hr hc hi hj]
  have hlen : (junkArr junk (mr.rows * mr.rows)).length = mr.rows * mr.rows := by simp [junkArr]
  constructor
  · intro hne
    by_contra hlt
    apply hne
    cases hl : reduceLoops m i j (0, x0, junkArr junk (mr.rows * mr.rows)) with
    | ub => rfl
    | ok s =>
      obtain ⟨u, x, v⟩ := s
      obtain ⟨h1, h2, h3⟩ := reduceLoops_ok m i j x0 _ _ hl
      dsimp only at h1 h2 h3
      rw [hlen] at h3
      rw [ok_bind]
      dsimp only
      unfold mtxFromArr
      rw [memcpyAt_src_short]
      · rfl
      · rw [h3]
        exact Nat.mul_lt_mul_of_pos_left (by omega) h0
  · intro hcr
    have h4 : ((do
        let (_, _, v) ← reduceLoops m i j (0, x0, junkArr junk (mr.rows * mr.rows))
        let (_, mr) ← mtxFromArr mr v
        return (0, mr)) : Out (Int × Mtx R)).sat fun _ => True := by
      refine (reduceLoops_safe m h i j x0 _ hi (by omega) (by rw [hlen, hr]; simp)).bind ?_
      rintro ⟨u, x, v⟩ hv
      dsimp only at hv ⊢
      refine (mtx_from_arr_safe mr v hmr ?_).bind ?_
      · rw [hv, hlen]
        exact Nat.mul_le_mul_left _ (by omega)
      · rintro ⟨_, mr'⟩ _
        simp
    obtain ⟨y, hy, -⟩ := h4
    rw [hy]
    exact fun hh => by cases hh

/-- The hypotheses are met: a 2x3 matrix and a 1x2 output, where the call is undefined. -/
example (junk : ℕ → R) (x0 a b c d e f x y : R) : mtxReduce junk x0 ⟨2, 3, [a, b, c, d, e, f]⟩ ⟨1, 2, [x, y]⟩ 0 0 = ub := by
  by_contra hne
  have := (mtx_reduce_safe_iff junk x0 ⟨2, 3, [a, b, c, d, e, f]⟩ ⟨1, 2, [x, y]⟩ 0 0 (by simp [Mtx.WF]) (by simp [Mtx.WF]) (by norm_num) rfl rfl
    (by norm_num) (by norm_num)).1 hne
  norm_num at this

/-- A 3x2 matrix and a 2x1 output, where it is not. -/
example (junk : ℕ → R) (x0 a b c d e f x y : R) : mtxReduce junk x0 ⟨3, 2, [a, b, c, d, e, f]⟩ ⟨2, 1, [x, y]⟩ 0 0 ≠ ub :=
  (mtx_reduce_safe_iff junk x0 ⟨3, 2, [a, b, c, d, e, f]⟩ ⟨2, 1, [x, y]⟩ 0 0 (by simp [Mtx.WF]) (by simp [Mtx.WF]) (by norm_num) rfl rfl
    (by norm_num) (by norm_num)).2 (by norm_num)

/-- C21. `zsl_mtx_reduce` accepts a matrix with more rows than columns and returns 0, but the output is not the minor: where a column is missing the previous element
is stored again. Here the minor is (d, f). -/
theorem mtx_reduce_tall_wrong (junk : ℕ → R) (x0 a b c d e f x y : R) :
    mtxReduce junk x0 ⟨3, 2, [a, b, c, d, e, f]⟩ ⟨2, 1, [x, y]⟩ 0 0 = ok (0, ⟨2, 1, [d, d]⟩) := by
  rfl

end Verif
