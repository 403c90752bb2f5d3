import Verif.Props.Matrices3

/-!
# Iterated reduction to a size that is never reached (C21)
-/

set_option linter.unusedSectionVars false

namespace Verif

open Out

variable {R : Type} [CReal R] {n k : ℕ}

/-- Specification: `j` calls of `zsl_mtx_reduce_iter` (matrices.c:679-712) in a row, with the list of their results. -/
def reduceCalls (junk : ℕ → R) (x0 : R) (m : Mtx R) : ℕ → ReduceState R → Out (List Int × ReduceState R)
  | 0, s => ok ([], s)
  | j + 1, s => do
    let (rc, s) ← mtxReduceIter junk x0 m s
    let (l, s) ← reduceCalls junk x0 m j s
    return (rc :: l, s)

/-- The calls from any point on, if the requested size is not reached. -/
theorem reduceCalls_never (junk : ℕ → R) (x0 : R) (f : ℕ → ℕ → R) (t : List R) (mred : Mtx R)
    (hm : mred.rows = 0 ∨ n < mred.rows) :
    ∀ (k : ℕ) (d1 d2 : List R) (r2 c2 : ℕ), 0 < k → k ≤ n → n * n ≤ d1.length → n * n ≤ d2.length →
      (k < n → ∃ t', d1 = mkD k k (fun a b => f (n - k + a) (n - k + b)) t') →
      (∀ j < k, ∃ s' : ReduceState R, s'.mred = mred ∧
        reduceCalls junk x0 (mkM n n f t) j ⟨mred, ⟨k, k, d1⟩, ⟨r2, c2, d2⟩⟩ = ok (List.replicate j (-EAGAIN), s')) ∧
      reduceCalls junk x0 (mkM n n f t) k ⟨mred, ⟨k, k, d1⟩, ⟨r2, c2, d2⟩⟩ = ub := by
  intro k
  induction k with
  | zero => intro d1 d2 r2 c2 h; omega
  | succ k ih =>
    intro d1 d2 r2 c2 _ hkn hl1 hl2 hd1
    obtain ⟨t', hl, hs⟩ := reduceIter_start f t d1 hkn hl1 hd1
    have hsub : szSub (k + 1) 1 = k := szSub_le (by omega)
    rcases Nat.eq_zero_or_pos k with rfl | hk
    · refine ⟨fun j hj => ?_, ?_⟩
      · obtain rfl : j = 0 := by omega
        exact ⟨_, rfl, rfl⟩
      · have hub : mtxReduceIter junk x0 (mkM n n f t) ⟨mred, ⟨0 + 1, 0 + 1, d1⟩, ⟨r2, c2, d2⟩⟩ = ub := by
          unfold mtxReduceIter
          rw [hs, ok_bind, if_neg (by simp only [mkM_rows]; omega)]
          simp only [mkM_rows, mkM_cols, hsub]
          unfold mtxReduce
          rw [if_pos rfl]
          rfl
        rw [reduceCalls, hub]
        rfl
    · have hkk : k * k ≤ n * n := Nat.mul_le_mul (by omega) (by omega)
      obtain ⟨w2, hw2⟩ := mtxOf_mk_of_length (k := k) (d := d2) (by omega)
      have hred := mkM_reduce junk x0 (n := k) (fun a b => f (n - (k + 1) + a) (n - (k + 1) + b)) w2 t'
        (d2.drop (k * k)) (i := 0) (j := 0) (by omega) (by omega) (by omega)
      have hblk : mkM k k (fun a b => f (n - (k + 1) + skip 0 a) (n - (k + 1) + skip 0 b)) (d2.drop (k * k)) =
          mkM k k (fun a b => f (n - k + a) (n - k + b)) (d2.drop (k * k)) := by
        apply mkM_congr
        intro a _ b _
        simp only [skip, Nat.not_lt_zero, if_false]
        congr 1 <;> omega
      rw [hblk] at hred
      have hcopy : ∃ t'', (mkD k k (fun a b => f (n - k + a) (n - k + b)) t'').length = d1.length ∧
          mtxCopy ⟨k, k, mkD (k + 1) (k + 1) (fun a b => f (n - (k + 1) + a) (n - (k + 1) + b)) t'⟩
            (mkM k k (fun a b => f (n - k + a) (n - k + b)) (d2.drop (k * k))) =
          ok (0, mkM k k (fun a b => f (n - k + a) (n - k + b)) t'') := by
        obtain ⟨w1, hw1⟩ := mtxOf_mk_of_length (k := k)
          (d := mkD (k + 1) (k + 1) (fun a b => f (n - (k + 1) + a) (n - (k + 1) + b)) t')
          (by rw [hl]; omega)
        refine ⟨_, ?_, by rw [hw1, mkM_copy]⟩
        rw [mkD_length, List.length_drop, hl]
        omega
      obtain ⟨t'', hl'', hc⟩ := hcopy
      obtain ⟨hj, hu⟩ := ih
        (mkD k k (fun a b => f (n - k + a) (n - k + b)) t'')
        (mkD k k (fun a b => f (n - k + a) (n - k + b)) (d2.drop (k * k))) k k
        hk (by omega) (by omega) (by rw [mkD_length, List.length_drop]; omega)
        (fun _ => ⟨_, rfl⟩)
      have hstep := reduceIter_again junk x0 (mkM n n f t) _ _ _
        ⟨mred, ⟨k + 1, k + 1, d1⟩, ⟨r2, c2, d2⟩⟩ hs (by simp only [mkM_rows]; omega)
        (by simp only [mkM_rows, mkM_cols, hsub]; rw [hw2, hred])
        (by simp only [mkM_rows, mkM_cols, mkM_data, hsub]; rw [hc])
      refine ⟨fun j hjk => ?_, ?_⟩
      · rcases j with _ | j
        · exact ⟨_, rfl, rfl⟩
        · obtain ⟨s', h1, h2⟩ := hj j (by omega)
          refine ⟨s', h1, ?_⟩
          rw [reduceCalls, hstep]
          simp only [ok_bind]
          unfold mkM
          unfold mkM at h2
          rw [h2]
          rfl
      · rw [reduceCalls, hstep]
        simp only [ok_bind]
        unfold mkM
        unfold mkM at hu
        rw [hu]
        rfl

/-- C21. `zsl_mtx_reduce_iter` does not check the requested size. If the output is larger than the `n × n` matrix, or empty, the first `n - 1` calls return
`-EAGAIN` and leave the output alone, and the call after them is undefined: it declares an array of length zero. No call returns an error. -/
theorem mtx_reduce_iter_never (junk : ℕ → R) (x0 : R) (A : Matrix (Fin n) (Fin n) R) (t d1 d2 : List R) (mred : Mtx R)
    (hm : mred.rows = 0 ∨ n < mred.rows) (hn : 0 < n) (h1 : n * n ≤ d1.length) (h2 : n * n ≤ d2.length) :
    (∀ j < n, ∃ s' : ReduceState R, s'.mred = mred ∧
      reduceCalls junk x0 (mtxOf A t) j ⟨mred, ⟨n, n, d1⟩, ⟨n, n, d2⟩⟩ = ok (List.replicate j (-EAGAIN), s')) ∧
    reduceCalls junk x0 (mtxOf A t) n ⟨mred, ⟨n, n, d1⟩, ⟨n, n, d2⟩⟩ = ub := by
  rw [mtxOf_eq]
  exact reduceCalls_never junk x0 (ext A) t mred hm n d1 d2 n n hn le_rfl h1 h2 (fun h => absurd h (lt_irrefl _))

/-- The hypotheses are met: a 2x2 matrix and a 3x3 output. The first call asks to be called again, the second is undefined. -/
example (junk : ℕ → R) (x0 x : R) (A : Matrix (Fin 2) (Fin 2) R) (B : Matrix (Fin 3) (Fin 3) R) :
    reduceCalls junk x0 (mtxOf A []) 2 ⟨mtxOf B [], ⟨2, 2, [x, x, x, x]⟩, ⟨2, 2, [x, x, x, x]⟩⟩ = ub :=
  (mtx_reduce_iter_never junk x0 A [] _ _ (mtxOf B []) (Or.inr (by rw [mtxOf_rows]; norm_num)) (by norm_num) (by simp) (by simp)).2

end Verif
