import Verif.Props.Safe2
import Verif.Props.Matrices3

/-!
# Memory safety of minors, determinants, elimination and inverses in src/matrices.c for every content (C116)
-/

namespace Verif

open Out

set_option linter.unusedSectionVars false

variable {R : Type} [CReal R]

/-- C116. `zsl_mtx_reduce` on a square matrix, for every output shape and every row and column. -/
theorem mtx_reduce_safe (junk : ℕ → R) (x0 : R) (m mr : Mtx R) (i j : ℕ) (h : m.WF) (hr : mr.WF) (hsq : m.rows = m.cols)
    (h0 : 0 < mr.rows) : (mtxReduce junk x0 m mr i j).sat fun p => mr.Like p.2 := by
  by_cases hbad : i < m.rows ∧ j < m.cols ∧ mr.rows = szSub m.rows 1 ∧ mr.cols = szSub m.cols 1
  · obtain ⟨hi, hj, h1, h2⟩ := hbad
    rw [szSub_le (by omega)] at h1 h2
    obtain ⟨f, hf⟩ := mkM_of_wf m h
    obtain ⟨g, hg⟩ := mkM_of_wf mr hr
    have e1 : mr.cols = mr.rows := by omega
    have e2 : m.rows = mr.rows + 1 := by omega
    have e3 : m.cols = mr.rows + 1 := by omega
    generalize m.data.drop _ = t at hf
    generalize mr.data.drop _ = u at hg
    generalize m.rows = a at *
    generalize m.cols = b at *
    generalize mr.rows = c at *
    generalize mr.cols = d at *
    subst e1 e2 e3
    rw [hf, hg, mkM_reduce junk x0 f g t u h0 hi hj]
    simp [Mtx.Like, mkD]
  · unfold mtxReduce
    rw [if_neg (by omega)]
    split
    · simp [Mtx.Like]
    split
    · simp [Mtx.Like]
    split
    · simp [Mtx.Like]
    omega

/-- C116. `zsl_mtx_augm_diag`, for every pair of shapes. -/
theorem mtx_augm_diag_safe (x0 : R) (m ma : Mtx R) (h : m.WF) (ha : ma.WF) :
    (mtxAugmDiag x0 m ma).sat fun p => ma.Like p.2 := by
  unfold mtxAugmDiag
  refine (mtx_init_safe ma ha).2.2.1.bind ?_
  rintro ⟨_, m1⟩ h1
  dsimp only at h1 ⊢
  refine Out.sat.bind (P := fun s : R × Mtx R => ma.Like s.2) ?_ (by rintro ⟨_, s⟩ hs; simpa using hs)
  refine forN_inv _ h1 fun i hi s hs => forN_inv _ hs ?_
  rintro j hj ⟨x, s⟩ hs
  dsimp only at hs ⊢
  refine (mtx_get_safe m i j x h).bind ?_
  rintro ⟨_, x⟩ _
  dsimp only
  refine (mtx_set_safe s _ _ x (hs.wf ha)).bind ?_
  rintro ⟨_, s'⟩ hs'
  simpa using hs.trans hs'

theorem mtxDeterN_safe (junk : ℕ → R) : ∀ (fuel : ℕ) (m : Mtx R) (d : R), m.WF → m.rows = m.cols → m.rows < fuel →
    (mtxDeterN fuel junk m d).sat fun _ => True := by
  intro fuel
  induction fuel with
  | zero => intro m d _ _ h; omega
  | succ fuel ih =>
    intro m d h hsq hf
    unfold mtxDeterN
    split
    · rename_i h1
      unfold Mtx.WF at h
      rw [← hsq, h1] at h
      simp
      omega
    split
    · rename_i h1 h2
      unfold Mtx.WF at h
      rw [← hsq, h2] at h
      simp
      omega
    split
    · exact (mtx_3x3_safe m m d h h).2
    rw [if_neg (by omega)]
    refine Out.sat.bind (forRet_inv (fun s => s.2.2.2.rows = m.rows - 1 ∧ s.2.2.2.cols = m.rows - 1 ∧ s.2.2.2.WF) (fun _ => True) ?_ ?_) ?_
    · exact ⟨rfl, rfl, by simp [Mtx.WF]⟩
    · rintro g hg ⟨d, dt, cur, mr⟩ ⟨hr, hc, hw⟩
      dsimp only at hr hc hw ⊢
      refine (mtx_get_safe m 0 g cur h).bind ?_
      rintro ⟨_, cur⟩ _
      dsimp only
      refine (mtx_init_safe mr hw).1.bind ?_
      rintro ⟨_, mr1⟩ l1
      dsimp only at l1 ⊢
      refine (mtx_reduce_safe junk (junk 0) m mr1 0 g h (l1.wf hw) hsq (by rw [l1.1]; omega)).bind ?_
      rintro ⟨_, mr2⟩ l2
      dsimp only at l2 ⊢
      have l := l1.trans l2
      refine (ih mr2 dt (l.wf hw) (by rw [l.1, l.2.1, hr, hc]) (by rw [l.1]; omega)).bind ?_
      rintro ⟨rc, dt⟩ _
      dsimp only
      split
      · simp
      · simp only [pure_eq, sat_ok]
        exact ⟨by rw [l.1, hr], by rw [l.2.1, hc], l.wf hw⟩
    · rintro (x | x) _ <;> simp

/-- C116. `zsl_mtx_deter` on a square matrix of any size. -/
theorem mtx_deter_safe (junk : ℕ → R) (m : Mtx R) (d : R) (h : m.WF) (hsq : m.rows = m.cols) :
    (mtxDeter junk m d).sat fun _ => True :=
  mtxDeterN_safe junk _ m d h hsq (by omega)

/-- C116. Without the squareness hypothesis it is false: for a 2x1 matrix `zsl_mtx_deter` reads the fourth element of a buffer of
two. -/
theorem mtx_deter_overread (junk : ℕ → R) (a b d : R) : mtxDeter junk ⟨2, 1, [a, b]⟩ d = ub := by
  unfold mtxDeter mtxDeterN
  rw [if_neg (by simp), if_pos rfl]
  rfl

/-- C116. `zsl_mtx_adjoint` on a square matrix other than 1x1 (for which the local array has no elements) and an output of any
shape. -/
theorem mtx_adjoint_safe (junk : ℕ → R) (m ma : Mtx R) (h : m.WF) (ha : ma.WF) (h1 : m.rows ≠ 1) :
    (mtxAdjoint junk m ma).sat fun p => ma.Like p.2 := by
  unfold mtxAdjoint
  split
  · exact (mtx_3x3_safe m ma (lit 0) h ha).1
  split
  · simp [Mtx.Like]
  rename_i hsq
  push Not at hsq
  rw [if_neg (by omega)]
  refine Out.sat.bind (P := fun s : R × Mtx R × Mtx R =>
    (s.2.1.rows = m.cols - 1 ∧ s.2.1.cols = m.cols - 1 ∧ s.2.1.WF) ∧ ma.Like s.2.2) ?_ (by rintro ⟨_, _, s⟩ ⟨_, hs⟩; simpa using hs)
  refine forN_inv _ ⟨⟨rfl, rfl, Mtx.wf_uninit _ _ _⟩, .refl _⟩ fun i hi s hs => forN_inv _ hs ?_
  rintro j hj ⟨d, mr, a⟩ ⟨⟨hr, hc, hw⟩, hl⟩
  dsimp only at hr hc hw hl ⊢
  refine (mtx_reduce_safe junk (junk 0) m mr i j h hw hsq (by rw [hr]; omega)).bind ?_
  rintro ⟨_, mr2⟩ l
  dsimp only at l ⊢
  refine (mtx_deter_safe junk mr2 d (l.wf hw) (by rw [l.1, l.2.1, hr, hc])).bind ?_
  rintro ⟨_, d⟩ _
  dsimp only
  refine (mtx_set_safe a i j _ (hl.wf ha)).bind ?_
  rintro ⟨_, a'⟩ hl'
  simp only [pure_eq, sat_ok]
  exact ⟨⟨by rw [l.1, hr], by rw [l.2.1, hc], l.wf hw⟩, hl.trans hl'⟩

theorem gaussElimLoop_safe (i j : ℕ) (y : R) (mg0 mi0 : Mtx R) (hg0 : mg0.WF) (hi0 : mi0.WF) (hgs : mg0.cols ≤ mg0.rows)
    (his : mi0.cols ≤ mi0.rows) : ∀ (k : ℕ) (mg mi : Mtx R) (x : R) (p : ℕ), mg0.Like mg → mi0.Like mi → mg.rows - p ≤ k →
      (gaussElimLoop mg mi i j x y p).sat fun r => mg0.Like r.2.1 ∧ mi0.Like r.2.2 := by
  intro k
  induction k with
  | zero =>
    intro mg mi x p hg hi hp
    rw [gaussElimLoop, if_neg (by omega)]
    exact satp (⟨hg, hi⟩)
  | succ k ih =>
    intro mg mi x p hg hi hp
    rw [gaussElimLoop]
    split
    · rename_i hlt
      dsimp only
      refine ite_sat (fun _ => satp ⟨hg, hi⟩) ?_
      · intro hne
        have hp' : p ≤ (if p = i then p + 1 else p) := by split <;> omega
        refine (mtx_get_safe mg _ j x (hg.wf hg0)).bind ?_
        rintro ⟨_, x⟩ _
        dsimp only
        split
        · refine (mtx_sum_rows_scaled_safe mg _ i _ (hg.wf hg0) (by rw [hg.1, hg.2.1]; exact hgs)).bind ?_
          rintro ⟨rc, mg'⟩ hg'
          dsimp only at hg' ⊢
          split
          · exact satp (⟨hg.trans hg', hi⟩)
          · refine (mtx_sum_rows_scaled_safe mi _ i _ (hi.wf hi0) (by rw [hi.1, hi.2.1]; exact his)).bind ?_
            rintro ⟨rc, mi'⟩ hi'
            dsimp only at hi' ⊢
            split
            · exact satp (⟨hg.trans hg', hi.trans hi'⟩)
            · refine ih _ _ _ _ ?_ (hi.trans hi') ?_
              · refine hg.trans ⟨rfl, hg'.2.1, hg'.2.2⟩
              · dsimp only
                omega
        · exact ih _ _ _ _ hg hi (by omega)
    · exact satp (⟨hg, hi⟩)

theorem gaussElimBody_safe (x0 : R) (mg mi : Mtx R) (i j : ℕ) (hg : mg.WF) (hi : mi.WF) (hgs : mg.cols ≤ mg.rows)
    (his : mi.cols ≤ mi.rows) : (gaussElimBody x0 mg mi i j).sat fun p => mg.Like p.2.1 ∧ mi.Like p.2.2 := by
  unfold gaussElimBody
  refine (mtx_get_safe mg i j x0 hg).bind ?_
  rintro ⟨rc, y⟩ _
  dsimp only
  split
  · exact satp (⟨.refl _, .refl _⟩)
  split
  · exact satp (⟨.refl _, .refl _⟩)
  · exact gaussElimLoop_safe i j y mg mi hg hi hgs his _ mg mi x0 0 (.refl _) (.refl _) le_rfl

/-- C116. `zsl_mtx_gauss_elim` and `zsl_mtx_gauss_elim_d`, for every element, on matrices with at most as many columns as rows. -/
theorem mtx_gauss_elim_safe (x0 : R) (m mg mi : Mtx R) (i j : ℕ) (h : m.WF) (hg : mg.WF) (hi : mi.WF) (hgs : mg.cols ≤ mg.rows)
    (his : mi.cols ≤ mi.rows) :
    ((mtxGaussElim x0 m mg mi i j).sat fun p => mg.Like p.2.1 ∧ mi.Like p.2.2) ∧
      (mtxGaussElimD x0 mg mi i j).sat fun p => mg.Like p.2.1 ∧ mi.Like p.2.2 := by
  refine ⟨?_, gaussElimBody_safe x0 mg mi i j hg hi hgs his⟩
  unfold mtxGaussElim
  refine (mtx_copy_safe mg m hg h).bind ?_
  rintro ⟨rc, mg'⟩ hl
  dsimp only at hl ⊢
  split
  · exact satp (⟨hl, .refl _⟩)
  · exact (gaussElimBody_safe x0 mg' mi i j (hl.wf hg) hi (by rw [hl.1, hl.2.1]; exact hgs) his).mono
      fun p hp => ⟨hl.trans hp.1, hp.2⟩

theorem normElemBody_safe (x0 : R) (mn mi : Mtx R) (i j : ℕ) (hn : mn.WF) (hi : mi.WF) :
    (normElemBody x0 mn mi i j).sat fun p => mn.Like p.2.1 ∧ mi.Like p.2.2 := by
  unfold normElemBody
  refine (mtx_get_safe mn i j x0 hn).bind ?_
  rintro ⟨rc, y⟩ _
  dsimp only
  split
  · exact satp (⟨.refl _, .refl _⟩)
  split
  · exact satp (⟨.refl _, .refl _⟩)
  refine (mtx_scalar_mult_row_safe mn i _ hn).bind ?_
  rintro ⟨rc, mn'⟩ hl
  dsimp only at hl ⊢
  split
  · exact satp (⟨hl, .refl _⟩)
  refine (mtx_scalar_mult_row_safe mi i _ hi).bind ?_
  rintro ⟨rc, mi'⟩ hl'
  dsimp only at hl' ⊢
  split <;> exact satp (⟨hl, hl'⟩)

/-- C116. `zsl_mtx_norm_elem` and `zsl_mtx_norm_elem_d`, for every element and every combination of shapes. -/
theorem mtx_norm_elem_safe (x0 : R) (m mn mi : Mtx R) (i j : ℕ) (h : m.WF) (hn : mn.WF) (hi : mi.WF) :
    ((mtxNormElem x0 m mn mi i j).sat fun p => mn.Like p.2.1 ∧ mi.Like p.2.2) ∧
      (mtxNormElemD x0 mn mi i j).sat fun p => mn.Like p.2.1 ∧ mi.Like p.2.2 := by
  refine ⟨?_, normElemBody_safe x0 mn mi i j hn hi⟩
  unfold mtxNormElem
  refine (mtx_copy_safe mn m hn h).bind ?_
  rintro ⟨rc, mn'⟩ hl
  dsimp only at hl ⊢
  split
  · exact satp (⟨hl, .refl _⟩)
  · exact (normElemBody_safe x0 mn' mi i j (hl.wf hn) hi).mono fun p hp => ⟨hl.trans hp.1, hp.2⟩

theorem gaussPivot_safe (rows k : ℕ) (v : List R) (y : R) (mg mi : Mtx R) (hg : mg.WF) (hi : mi.WF) (hv : v.length = rows)
    (hr : mg.rows ≤ rows) :
    (gaussPivot rows k v y mg mi).sat fun p => p.1.length = rows ∧ mg.Like p.2.2.1 ∧ mi.Like p.2.2.2 := by
  unfold gaussPivot
  refine (mtx_get_col_safe mg k v hg (by omega)).bind ?_
  rintro ⟨_, v'⟩ hv'
  dsimp only at hv' ⊢
  refine Out.sat.bind (forRet_inv (fun _ => True) (fun p => p.1.length = rows ∧ mg.Like p.2.2.1 ∧ mi.Like p.2.2.2) trivial ?_) ?_
  · intro q hq y _
    refine (mtx_get_safe mg q q y hg).bind ?_
    rintro ⟨_, y⟩ _
    dsimp only
    rw [rd_lt (by omega), ok_bind]
    split
    · split
      · simp
      · refine (mtx_sum_rows_safe mg k q hg).bind ?_
        rintro ⟨_, mg'⟩ l1
        refine (mtx_sum_rows_safe mi k q hi).bind ?_
        rintro ⟨_, mi'⟩ l2
        simp only [pure_eq, sat_ok]
        exact ⟨by omega, l1, l2⟩
    · simp
  · rintro (x | x) hx
    · simp only [pure_eq, sat_ok]
      exact ⟨by omega, .refl _, .refl _⟩
    · simpa using hx

/-- C116. `zsl_mtx_gauss_reduc`: the copy must not have more rows than the matrix and neither matrix more columns than rows. -/
theorem mtx_gauss_reduc_safe (junk : ℕ → R) (m mi mg : Mtx R) (h : m.WF) (hi : mi.WF) (hg : mg.WF) (h0 : 0 < m.rows)
    (hr : mg.rows ≤ m.rows) (hgs : mg.cols ≤ mg.rows) (his : mi.cols ≤ mi.rows) :
    (mtxGaussReduc junk m mi mg).sat fun p => mi.Like p.2.1 ∧ mg.Like p.2.2 := by
  unfold mtxGaussReduc
  rw [if_neg (by omega)]
  refine (mtx_copy_safe mg m hg h).bind ?_
  rintro ⟨_, mg'⟩ hl
  dsimp only at hl ⊢
  refine Out.sat.bind (P := fun s : GaussState R => s.v.length = m.rows ∧ mi.Like s.mi ∧ mg.Like s.mg) ?_
    (by intro s hs; simpa using hs.2)
  refine forN_inv _ ⟨by simp, .refl _, hl⟩ ?_
  rintro k hk ⟨x, y, v, g, i⟩ ⟨hv, l1, l2⟩
  dsimp only at hv l1 l2
  unfold gaussReducStep
  dsimp only
  refine (mtx_get_safe g k k x (l2.wf hg)).bind ?_
  rintro ⟨_, x⟩ _
  dsimp only
  refine Out.sat.bind (P := fun p : List R × R × Mtx R × Mtx R => p.1.length = m.rows ∧ mg.Like p.2.2.1 ∧ mi.Like p.2.2.2) ?_ ?_
  · split
    · exact (gaussPivot_safe m.rows k v y g i (l2.wf hg) (l1.wf hi) hv (by rw [l2.1]; exact hr)).mono
        fun p hp => ⟨hp.1, l2.trans hp.2.1, l1.trans hp.2.2⟩
    · exact satp (⟨hv, l2, l1⟩)
  · rintro ⟨v, y, g, i⟩ ⟨hv, l2, l1⟩
    dsimp only at hv l1 l2 ⊢
    refine (gaussElimBody_safe (junk 0) g i k k (l2.wf hg) (l1.wf hi) (by rw [l2.1, l2.2.1]; exact hgs)
      (by rw [l1.1, l1.2.1]; exact his)).bind ?_
    rintro ⟨_, g', i'⟩ ⟨l3, l4⟩
    dsimp only at l3 l4 ⊢
    have l3 := l2.trans l3
    have l4 := l1.trans l4
    refine (normElemBody_safe (junk 0) g' i' k k (l3.wf hg) (l4.wf hi)).bind ?_
    rintro ⟨_, g2, i2⟩ ⟨l5, l6⟩
    simp only [pure_eq, sat_ok]
    exact ⟨hv, l4.trans l6, l3.trans l5⟩

/-- C116. `zsl_mtx_inv_3x3`, for every combination of shapes. -/
theorem mtx_inv_3x3_safe (x0 : R) (m mi : Mtx R) (h : m.WF) (hi : mi.WF) : (mtxInv3x3 x0 m mi).sat fun p => mi.Like p.2 := by
  unfold mtxInv3x3
  split
  · simp [Mtx.Like]
  split
  · simp [Mtx.Like]
  split
  · simp [Mtx.Like]
  split
  · simp [Mtx.Like]
  refine (mtx_3x3_safe m mi x0 h hi).2.bind ?_
  rintro ⟨rc, d⟩ _
  dsimp only
  split
  · simp [Mtx.Like]
  refine (mtx_3x3_safe m mi x0 h hi).1.bind ?_
  rintro ⟨rc, a⟩ l1
  dsimp only at l1 ⊢
  split
  · exact satp (l1)
  split
  · refine (mtx_scalar_mult_safe a _ (l1.wf hi)).bind ?_
    rintro ⟨_, b⟩ l2
    exact satp (l1.trans l2)
  · refine (mtx_init_safe a (l1.wf hi)).2.2.1.bind ?_
    rintro ⟨_, b⟩ l2
    dsimp only
    split <;> exact satp (l1.trans l2)

/-- C116. `zsl_mtx_inv`, for every combination of shapes with at least one row. -/
theorem mtx_inv_safe (junk : ℕ → R) (m mi : Mtx R) (h : m.WF) (hi : mi.WF) (h0 : 0 < m.rows) :
    (mtxInv junk m mi).sat fun p => mi.Like p.2 := by
  unfold mtxInv
  split
  · exact mtx_inv_3x3_safe (junk 0) m mi h hi
  split
  · simp [Mtx.Like]
  split
  · simp [Mtx.Like]
  split
  · simp [Mtx.Like]
  rename_i h1 h2 h3
  push Not at h1 h2 h3
  rw [if_neg (by omega)]
  refine (mtx_copy_safe (Mtx.uninit junk mi.rows mi.cols) m (Mtx.wf_uninit _ _ _) h).bind ?_
  rintro ⟨rc, t⟩ l0
  dsimp only at l0 ⊢
  split
  · simp [Mtx.Like]
  refine (mtx_init_safe mi hi).2.2.1.bind ?_
  rintro ⟨rc, a⟩ l1
  dsimp only at l1 ⊢
  split
  · exact satp (l1)
  refine (mtx_deter_safe junk m (lit 0) h h1.1).bind ?_
  rintro ⟨_, d⟩ _
  dsimp only
  split
  · exact satp (l1)
  refine (mtx_gauss_reduc_safe junk m a t h (l1.wf hi) (l0.wf (Mtx.wf_uninit _ _ _)) h0 ?_ ?_ ?_).bind ?_
  · rw [l0.1]
    simpa using h2.ge
  · rw [l0.1, l0.2.1]
    simpa using h1.2.ge
  · rw [l1.1, l1.2.1]
    exact h1.2.ge
  · rintro ⟨_, b, _⟩ ⟨l2, _⟩
    exact satp (l1.trans l2)

/-- C116. `zsl_mtx_vec_wedge`, for every pair of shapes. -/
theorem mtx_vec_wedge_safe (junk : ℕ → R) (m : Mtx R) (v : Vec R) (h : m.WF) (hv : v.WF) :
    (mtxVecWedge junk m v).sat fun p => v.Like p.2 := by
  unfold mtxVecWedge
  split
  · simp [Vec.Like]
  rename_i hb
  push Not at hb
  obtain ⟨hsz, h4, hr⟩ := hb
  rw [szSub_le (by omega)] at hr
  have hn : 0 < m.cols := by omega
  have hnn : 0 < m.cols * m.cols := Nat.mul_pos hn hn
  refine (mtx_init_safe (Mtx.uninit junk m.cols m.cols) (Mtx.wf_uninit _ _ _)).1.bind ?_
  rintro ⟨_, A⟩ l1
  dsimp only at l1 ⊢
  obtain ⟨a1, a2, a3⟩ := l1
  simp only [Mtx.uninit_rows, Mtx.uninit_cols, Mtx.uninit_len] at a1 a2 a3
  rw [wr_lt _ (by omega), ok_bind]
  refine Out.sat.bind (P := fun s : List R × Mtx R => s.1.length = m.cols ∧ s.2.rows = m.cols ∧ s.2.cols = m.cols ∧ s.2.WF) ?_ ?_
  · refine forN_inv _ ⟨by simp, a1, a2, by simp [Mtx.WF, a1, a2, a3]⟩ ?_
    rintro i hi ⟨w, B⟩ ⟨hw, b1, b2, b3⟩
    dsimp only at hw b1 b2 b3 ⊢
    refine (mtx_get_row_safe m i w h (by omega)).bind ?_
    rintro ⟨_, w'⟩ hw'
    dsimp only at hw' ⊢
    refine (mtx_set_row_safe B i w' b3 (by omega)).bind ?_
    rintro ⟨_, B'⟩ l
    simp only [pure_eq, sat_ok]
    dsimp only at l
    exact ⟨by omega, by rw [l.1, b1], by rw [l.2.1, b2], l.wf b3⟩
  · rintro ⟨w, B⟩ ⟨hw, b1, b2, b3⟩
    dsimp only at hw b1 b2 b3 ⊢
    refine (mtx_deter_safe junk B (junk 0) b3 (by omega)).bind ?_
    rintro ⟨_, d⟩ _
    dsimp only
    refine (mtx_inv_safe junk B (Mtx.uninit junk m.cols m.cols) b3 (Mtx.wf_uninit _ _ _) (by omega)).bind ?_
    rintro ⟨_, Ai⟩ li
    dsimp only at li ⊢
    refine (mtx_init_safe (Mtx.uninit junk m.cols 1) (Mtx.wf_uninit _ _ _)).1.bind ?_
    rintro ⟨_, b⟩ lb
    dsimp only at lb ⊢
    have lbw := lb.wf (Mtx.wf_uninit _ _ _)
    obtain ⟨c1, c2, c3⟩ := lb
    simp only [Mtx.uninit_rows, Mtx.uninit_cols, Mtx.uninit_len, Nat.mul_one] at c1 c2 c3
    rw [wr_lt _ (by omega), ok_bind]
    have hbw : (⟨b.rows, b.cols, b.data.set (m.cols - 1) d⟩ : Mtx R).WF := by simpa [Mtx.WF] using lbw
    refine (mtx_mult_safe Ai _ _ (li.wf (Mtx.wf_uninit _ _ _)) hbw hbw).bind ?_
    rintro ⟨_, r⟩ lr
    dsimp only at lr ⊢
    refine (vec_from_arr_safe v r.data hv (by rw [lr.2.2, List.length_set, c3]; omega)).bind ?_
    rintro ⟨_, v'⟩ l
    exact satp (l)

/-- C116. `zsl_mtx_min`, `zsl_mtx_max` and the index searches: any non-empty matrix; the indices returned are in range. -/
theorem mtx_extrema_safe (m : Mtx R) (h : m.WF) (hr : 0 < m.rows) (hc : 0 < m.cols) :
    ((mtxMin m).sat fun _ => True) ∧ ((mtxMax m).sat fun _ => True) ∧
      ((mtxMinIdx m).sat fun p => p.2.1 < m.rows ∧ p.2.2 < m.cols) ∧
      (mtxMaxIdx m).sat fun p => p.2.1 < m.rows ∧ p.2.2 < m.cols := by
  unfold Mtx.WF at h
  have hp := Nat.mul_pos hr hc
  refine ⟨?_, ?_, ?_, ?_⟩
  · unfold mtxMin
    rw [rd_lt (by omega), ok_bind]
    refine Out.sat.bind (P := fun _ => True) (forN_inv _ trivial fun i hi t _ => ?_) (by simp)
    rw [Nat.mul_comm] at hi
    rw [rd_lt (by omega)]
    simp
  · unfold mtxMax
    rw [rd_lt (by omega), ok_bind]
    refine Out.sat.bind (P := fun _ => True) (forN_inv _ trivial fun i hi t _ => ?_) (by simp)
    rw [Nat.mul_comm] at hi
    rw [rd_lt (by omega)]
    simp
  all_goals
    first | unfold mtxMinIdx | unfold mtxMaxIdx
    rw [rd_lt (by omega), ok_bind]
    refine Out.sat.bind (P := fun s : R × ℕ × ℕ => s.2.1 < m.rows ∧ s.2.2 < m.cols) ?_ (by rintro ⟨_, i, j⟩ hs; simpa using hs)
    refine forN_inv _ ⟨hr, hc⟩ fun i hi s hs => forN_inv _ hs fun j hj s hs => ?_
    have := flat_lt hi hj
    rw [rd_lt (by omega), ok_bind]
    split
    · exact satp (⟨hi, hj⟩)
    · exact satp (hs)

/-- C116. `zsl_mtx_is_notneg` and `zsl_mtx_is_sym`, for every shape. -/
theorem mtx_tests_safe (m : Mtx R) (x0 : R) (h : m.WF) : ((mtxIsNotneg m).sat fun _ => True) ∧ (mtxIsSym x0 m).sat fun _ => True := by
  constructor
  · unfold mtxIsNotneg
    unfold Mtx.WF at h
    refine Out.sat.bind (forRet_inv (fun _ => True) (fun _ => True) trivial fun i hi t _ => ?_) ?_
    · rw [rd_lt (by omega), ok_bind]
      split <;> simp
    · rintro (x | x) _ <;> simp
  · unfold mtxIsSym
    refine Out.sat.bind (forRet_inv (fun _ => True) (fun _ => True) trivial fun i hi t _ => ?_) ?_
    · refine forRet_inv (fun _ => True) (fun _ => True) trivial fun j hj t _ => ?_
      refine (mtx_get_safe m i j _ h).bind ?_
      rintro ⟨_, x⟩ _
      refine (mtx_get_safe m j i _ h).bind ?_
      rintro ⟨_, y⟩ _
      dsimp only
      split <;> simp
    · rintro (x | x) _ <;> simp

/-- Non-vacuity: a 4x4 matrix of NaN is inverted without leaving the buffers. -/
example (junk : ℕ → XR) :
    (mtxInv junk ⟨4, 4, List.replicate 16 XR.nan⟩ ⟨4, 4, List.replicate 20 XR.pinf⟩).sat fun p => p.2.data.length = 20 :=
  (mtx_inv_safe junk _ _ (by simp [Mtx.WF]) (by simp [Mtx.WF]) (by simp)).mono fun p hp => by
    rw [hp.2.2]
    simp

end Verif
