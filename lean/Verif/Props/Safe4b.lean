import Verif.Props.Safe4

/-!
# Orthonormalisation into an output with too many rows (C117)

The converse of `mtx_gram_schmidt_safe` and `mtx_cols_norm_safe`: their condition on the number of rows of the output is needed for every matrix.
-/

set_option linter.unusedSectionVars false

namespace Verif

open Out

variable {R : Type} [CReal R]

/-- Something undefined after a step that is defined. -/
theorem Out.sat.bind_ub {α β : Type} {x : Out α} {P : α → Prop} {f : α → Out β} (h : x.sat P) (hf : ∀ a, P a → f a = ub) : (x >>= f) = ub := by
  obtain ⟨a, rfl, ha⟩ := h
  exact hf a ha

/-- A loop whose first iteration is undefined. -/
theorem forN_start_ub {σ : Type} {n : ℕ} {f : ℕ → σ → Out σ} {s : σ} (hn : 0 < n) (h : f 0 s = ub) : forN n f s = ub := by
  induction n with
  | zero => omega
  | succ n ih =>
    rw [forN_succ]
    rcases Nat.eq_zero_or_pos n with rfl | h'
    · exact h
    · rw [ih h']
      rfl

/-- A loop that is undefined is undefined for every larger bound. -/
theorem forRet_mono_ub {σ ρ : Type} {n k : ℕ} {f : ℕ → σ → Out (Ctl σ ρ)} {s : σ} (h : forRet k f s = ub) (hk : k ≤ n) : forRet n f s = ub := by
  induction n with
  | zero =>
    obtain rfl : k = 0 := by omega
    exact h
  | succ n ih =>
    rcases Nat.lt_or_eq_of_le hk with h' | rfl
    · rw [forRet, ih (by omega)]
      rfl
    · exact h

/-- C116. `zsl_mtx_set_col` with an array shorter than the column reads past its end. -/
theorem mtx_set_col_overread (m : Mtx R) (j : ℕ) (v : List R) (h : m.WF) (hj : j < m.cols) (hv : v.length < m.rows) :
    mtxSetCol m j v = ub := by
  unfold mtxSetCol
  have hsat : (forRet v.length (fun i (m : Mtx R) => do
      let x ← rd v i
      let (rc, m) ← mtxSet m i j x
      if rc ≠ 0 then return Ctl.ret (rc, m) else return Ctl.next m) m : Out (Ctl (Mtx R) (Int × Mtx R))).sat fun c =>
      match c with
      | .next s => m.Like s
      | .ret _ => False := by
    refine (forRet_sat (fun _ t => m.Like t) (fun _ => False) (.refl _) fun i hi t ht => ?_).mono (by rintro (t | r) hr <;> exact hr)
    rw [rd_lt hi, ok_bind]
    have hset : (mtxSet t i j v[i]).sat fun p => p.1 = 0 ∧ t.Like p.2 := by
      obtain ⟨⟨rc, t'⟩, h1, h2⟩ := mtx_set_safe t i j v[i] (ht.wf h)
      refine ⟨(rc, t'), h1, ?_, h2⟩
      unfold mtxSet at h1
      rw [if_neg (by rw [ht.1, ht.2.1]; omega)] at h1
      cases hw : wr t.data (i * t.cols + j) v[i] with
      | ub => rw [hw] at h1; cases h1
      | ok d =>
        rw [hw] at h1
        simp only [ok_bind, pure_eq, Out.ok.injEq, Prod.mk.injEq] at h1
        exact h1.1.symm
    refine hset.bind ?_
    rintro ⟨rc, t'⟩ ⟨h1, h2⟩
    dsimp only at h1 h2 ⊢
    subst h1
    simp only [ne_eq, not_true_eq_false, if_false, pure_eq, sat_ok]
    exact ht.trans h2
  have hub : (forRet (v.length + 1) (fun i (m : Mtx R) => do
      let x ← rd v i
      let (rc, m) ← mtxSet m i j x
      if rc ≠ 0 then return Ctl.ret (rc, m) else return Ctl.next m) m : Out (Ctl (Mtx R) (Int × Mtx R))) = ub := by
    rw [forRet]
    refine hsat.bind_ub ?_
    rintro (t | r) hr
    · dsimp only
      rw [rd_ge le_rfl]
      rfl
    · exact hr.elim
  rw [forRet_mono_ub hub (by omega)]
  rfl

/-- C117. `zsl_mtx_cols_norm` with an output that has more rows than the input, for every matrix: it reads past the end of the local column. The function
checks no sizes. -/
theorem mtx_cols_norm_overread (junk : ℕ → R) (m mo : Mtx R) (h : m.WF) (ho : mo.WF) (hc : 0 < m.cols) (hco : 0 < mo.cols) (hr : m.rows < mo.rows) :
    mtxColsNorm junk m mo = ub := by
  unfold mtxColsNorm
  by_cases h0 : m.rows = 0
  · rw [if_pos h0]
  rw [if_neg h0, forN_start_ub hc]
  · rfl
  have hv := Vec.full_uninit junk m.rows
  refine (mtx_get_col_safe m 0 _ h (by rw [hv.2])).bind_ub ?_
  rintro ⟨_, vd⟩ hvd
  dsimp only at hvd ⊢
  have hv := hv.data hvd
  refine (vec_to_unit_safe _ hv.wf (by rw [hv.1]; omega)).bind_ub ?_
  rintro ⟨_, v'⟩ lv
  dsimp only at lv ⊢
  have hv := lv.full hv
  rw [mtx_set_col_overread mo 0 v'.data ho hco (by rw [hv.2]; exact hr)]
  rfl

/-- C117. `zsl_mtx_gram_schmidt` with an output that has more rows than the input, for every matrix: it reads past the end of the local column. The
function checks no sizes. -/
theorem mtx_gram_schmidt_overread (junk : ℕ → R) (m mo : Mtx R) (h : m.WF) (ho : mo.WF) (hc : 0 < m.cols) (hco : 0 < mo.cols) (hr : m.rows < mo.rows) :
    mtxGramSchmidt junk m mo = ub := by
  unfold mtxGramSchmidt
  by_cases h0 : m.rows = 0
  · rw [if_pos h0]
  rw [if_neg h0, forN_start_ub hc]
  · rfl
  have hv := Vec.full_uninit junk m.rows
  refine (vec_init_safe _ hv.wf).bind_ub ?_
  rintro ⟨_, q'⟩ lq
  have hq := lq.full hv
  dsimp only at lq ⊢
  refine (mtx_get_col_safe m 0 _ h (by rw [hv.2])).bind_ub ?_
  rintro ⟨_, vd⟩ hvd
  dsimp only at hvd ⊢
  have hv := hv.data hvd
  rw [forN_zero, ok_bind]
  refine (vec_sub_safe _ q' _ hv.wf hq.wf hv.wf).bind_ub ?_
  rintro ⟨_, v'⟩ lv
  dsimp only at lv ⊢
  have hv := lv.full hv
  rw [mtx_set_col_overread mo 0 v'.data ho hco (by rw [hv.2]; exact hr)]
  rfl

/-- The hypotheses are met: a 2x2 matrix and a 3x2 output. -/
example (junk : ℕ → R) (a b c d x : R) :
    mtxGramSchmidt junk ⟨2, 2, [a, b, c, d]⟩ ⟨3, 2, [x, x, x, x, x, x]⟩ = ub ∧ mtxColsNorm junk ⟨2, 2, [a, b, c, d]⟩ ⟨3, 2, [x, x, x, x, x, x]⟩ = ub := by
  have h1 : (⟨2, 2, [a, b, c, d]⟩ : Mtx R).WF := by simp [Mtx.WF]
  have h2 : (⟨3, 2, [x, x, x, x, x, x]⟩ : Mtx R).WF := by simp [Mtx.WF]
  exact ⟨mtx_gram_schmidt_overread junk _ _ h1 h2 (by norm_num) (by norm_num) (by norm_num),
    mtx_cols_norm_overread junk _ _ h1 h2 (by norm_num) (by norm_num) (by norm_num)⟩

end Verif
