import Verif.Props.Safe3
import Verif.Model.MatDecomp

/-!
# Memory safety of the decompositions in src/matrices.c for every content (C117)
-/

namespace Verif

open Out

set_option linter.unusedSectionVars false

variable {R : Type} [CReal R]

/-- A vector that fills its buffer of `n` cells. -/
def Vec.Full (n : ℕ) (v : Vec R) : Prop := v.sz = n ∧ v.data.length = n

theorem Vec.Full.wf {n : ℕ} {v : Vec R} (h : v.Full n) : v.WF := by
  unfold Vec.WF
  rw [h.1, h.2]

theorem Vec.Like.full {n : ℕ} {v w : Vec R} (h : v.Like w) (hv : v.Full n) : w.Full n := ⟨h.1.trans hv.1, h.2.trans hv.2⟩

theorem Vec.Full.data {n : ℕ} {v : Vec R} (h : v.Full n) {d : List R} (hd : d.length = v.data.length) : (⟨v.sz, d⟩ : Vec R).Full n :=
  ⟨h.1, hd.trans h.2⟩

theorem Vec.full_uninit (junk : ℕ → R) (n : ℕ) : (Vec.uninit junk n).Full n := ⟨rfl, by simp⟩

/-- C117. `zsl_mtx_gram_schmidt`: the output must not have more rows than the input. -/
theorem mtx_gram_schmidt_safe (junk : ℕ → R) (m mo : Mtx R) (h : m.WF) (ho : mo.WF) (h0 : 0 < m.rows) (hr : mo.rows ≤ m.rows) :
    (mtxGramSchmidt junk m mo).sat fun p => mo.Like p.2 := by
  unfold mtxGramSchmidt
  rw [if_neg (by omega)]
  refine Out.sat.bind (P := fun s : Vec R × Vec R × Vec R × Mtx R => s.1.Full m.rows ∧ s.2.1.Full m.rows ∧ s.2.2.1.Full m.rows ∧
    mo.Like s.2.2.2) ?_ (by rintro ⟨_, _, _, s⟩ hs; exact satp hs.2.2.2)
  refine forN_inv _ ⟨Vec.full_uninit _ _, Vec.full_uninit _ _, Vec.full_uninit _ _, .refl _⟩ ?_
  rintro t ht ⟨v, w, q, a⟩ ⟨hv, hw, hq, hl⟩
  dsimp only at hv hw hq hl ⊢
  refine (vec_init_safe q hq.wf).bind ?_
  rintro ⟨_, q'⟩ lq
  dsimp only at lq ⊢
  refine (mtx_get_col_safe m t v.data h (by rw [hv.2])).bind ?_
  rintro ⟨_, vd⟩ hvd
  dsimp only at hvd ⊢
  have hv := hv.data hvd
  refine Out.sat.bind (P := fun s : Vec R × Vec R => s.1.Full m.rows ∧ s.2.Full m.rows) ?_ ?_
  · refine forN_inv _ ⟨hw, lq.full hq⟩ ?_
    rintro g hg ⟨w, q⟩ ⟨hw, hq⟩
    dsimp only at hw hq ⊢
    refine (mtx_get_col_safe a g w.data (hl.wf ho) (by rw [hl.1, hw.2]; exact hr)).bind ?_
    rintro ⟨_, wd⟩ hwd
    dsimp only at hwd ⊢
    have hw := hw.data hwd
    refine (vec_project_onto_safe _ _ hw.wf hv.wf).bind ?_
    rintro ⟨_, w'⟩ lw
    dsimp only at lw ⊢
    refine (vec_add_safe q w' q hq.wf (lw.full hw).wf hq.wf).bind ?_
    rintro ⟨_, q'⟩ lq
    exact satp ⟨lw.full hw, lq.full hq⟩
  · rintro ⟨w, q⟩ ⟨hw, hq⟩
    dsimp only at hw hq ⊢
    refine (vec_sub_safe _ q _ hv.wf hq.wf hv.wf).bind ?_
    rintro ⟨_, v'⟩ lv
    dsimp only at lv ⊢
    have hv := lv.full hv
    refine (mtx_set_col_safe a t v'.data (hl.wf ho) (by rw [hl.1, hv.2]; exact hr)).bind ?_
    rintro ⟨_, a'⟩ l
    exact satp ⟨hv, hw, hq, hl.trans l⟩

/-- C117. `zsl_mtx_cols_norm`: the output must not have more rows than the input. -/
theorem mtx_cols_norm_safe (junk : ℕ → R) (m mo : Mtx R) (h : m.WF) (ho : mo.WF) (h0 : 0 < m.rows) (hr : mo.rows ≤ m.rows) :
    (mtxColsNorm junk m mo).sat fun p => mo.Like p.2 := by
  unfold mtxColsNorm
  rw [if_neg (by omega)]
  refine Out.sat.bind (P := fun s : Vec R × Mtx R => s.1.Full m.rows ∧ mo.Like s.2) ?_ (by rintro ⟨_, s⟩ hs; exact satp hs.2)
  refine forN_inv _ ⟨Vec.full_uninit _ _, .refl _⟩ ?_
  rintro t ht ⟨v, a⟩ ⟨hv, hl⟩
  dsimp only at hv hl ⊢
  refine (mtx_get_col_safe m t v.data h (by rw [hv.2])).bind ?_
  rintro ⟨_, vd⟩ hvd
  dsimp only at hvd ⊢
  have hv := hv.data hvd
  refine (vec_to_unit_safe _ hv.wf (by rw [hv.1]; exact h0)).bind ?_
  rintro ⟨_, v'⟩ lv
  dsimp only at lv ⊢
  have hv := lv.full hv
  refine (mtx_set_col_safe a t v'.data (hl.wf ho) (by rw [hl.1, hv.2]; exact hr)).bind ?_
  rintro ⟨_, a'⟩ l
  exact satp ⟨hv, hl.trans l⟩

/-- C117. `zsl_mtx_cholesky`, for every pair of shapes. -/
theorem mtx_cholesky_safe (x0 : R) (m l : Mtx R) (h : m.WF) (hl : l.WF) : (mtxCholesky x0 m l).sat fun p => l.Like p.2 := by
  unfold mtxCholesky
  refine ite_sat (fun _ => by simp [Mtx.Like]) fun hsq => ?_
  have ha : (choleskyAsym x0 m).sat fun _ => True := by
    unfold choleskyAsym
    refine Out.sat.bind (forRet_inv (fun _ => True) (fun _ => True) trivial fun i hi t _ => ?_) ?_
    · refine forRet_inv (fun _ => True) (fun _ => True) trivial fun j hj t _ => ?_
      refine (mtx_get_safe m i j _ h).bind ?_
      rintro ⟨_, x⟩ _
      refine (mtx_get_safe m j i _ h).bind ?_
      rintro ⟨_, y⟩ _
      dsimp only
      split <;> simp
    · rintro (x | x) _ <;> simp
  refine ha.bind ?_
  intro asym _
  refine ite_sat (fun _ => satp (.refl _)) fun _ => ?_
  refine ite_sat (fun _ => satp (.refl _)) fun _ => ?_
  refine ite_sat (fun _ => satp (.refl _)) fun _ => ?_
  refine (mtx_init_safe l hl).2.1.bind ?_
  rintro ⟨_, l'⟩ l1
  dsimp only at l1 ⊢
  refine Out.sat.bind (P := fun s : R × R × Mtx R => l.Like s.2.2) ?_ (by rintro ⟨_, _, s⟩ hs; exact satp hs)
  refine forN_inv _ l1 ?_
  rintro j hj ⟨x, y, a⟩ la
  dsimp only at la ⊢
  refine Out.sat.bind (P := fun _ => True) (forN_inv _ trivial ?_) ?_
  · rintro k hk ⟨s, x⟩ _
    exact (mtx_get_safe a j k _ (la.wf hl)).bind fun _ _ => satp trivial
  rintro ⟨s, x⟩ _
  dsimp only
  refine (mtx_get_safe m j j x h).bind ?_
  rintro ⟨_, x⟩ _
  refine (mtx_set_safe a j j _ (la.wf hl)).bind ?_
  rintro ⟨_, a'⟩ la'
  dsimp only at la' ⊢
  refine forN_inv _ (la.trans la') ?_
  rintro i hi ⟨x, y, a⟩ la
  dsimp only at la ⊢
  refine Out.sat.bind (P := fun _ => True) (forN_inv _ trivial ?_) ?_
  · rintro k hk ⟨s, x, y⟩ _
    exact (mtx_get_safe a j k _ (la.wf hl)).bind fun _ _ => (mtx_get_safe a _ k _ (la.wf hl)).bind fun _ _ => satp trivial
  rintro ⟨s, x, y⟩ _
  dsimp only
  refine (mtx_get_safe a j j x (la.wf hl)).bind ?_
  rintro ⟨_, x⟩ _
  refine (mtx_get_safe m _ j y h).bind ?_
  rintro ⟨_, y⟩ _
  refine (mtx_set_safe a _ j _ (la.wf hl)).bind ?_
  rintro ⟨_, a'⟩ la'
  exact satp (la.trans la')

/-- C117. `zsl_mtx_householder`, for a matrix of any shape with enough rows. -/
theorem mtx_householder_safe (junk : ℕ → R) (m h : Mtx R) (hess : Bool) (hm : m.WF) (hh : h.WF) (hr : 0 < m.rows)
    (hr2 : hess = true → 2 ≤ m.rows) (hsz : m.rows < SIZE_MOD) : (mtxHouseholder junk m h hess).sat fun p => h.Like p.2 := by
  unfold mtxHouseholder
  obtain ⟨sz, hsize⟩ : ∃ sz, sz = if hess then szSub m.rows 1 else m.rows := ⟨_, rfl⟩
  have hpos : 0 < sz ∧ sz ≤ m.rows ∧ (hess = true → 1 + sz = m.rows) ∧ (hess = false → sz = m.rows) := by
    rw [hsize, szSub_le (by omega)]
    cases hess <;> simp at * <;> omega
  rw [← hsize]
  clear hsize
  obtain ⟨h1, h2, h3, h4⟩ := hpos
  dsimp only
  rw [if_neg (by omega)]
  refine (vec_init_safe (Vec.uninit junk sz) (Vec.wf_uninit _ _)).bind ?_
  rintro ⟨_, e1⟩ ⟨a1, a2⟩
  simp only [Vec.uninit_sz, Vec.uninit_len] at a1 a2
  dsimp only at a1 a2 ⊢
  rw [wr_lt _ (by omega), ok_bind]
  refine (mtx_get_col_safe m 0 (junkArr junk m.rows) hm (by simp)).bind ?_
  rintro ⟨_, v2⟩ hv2
  simp only [junkArr_length] at hv2
  dsimp only
  refine Out.sat.bind (P := fun p : Int × Vec R => p.2.WF ∧ p.2.data.length = sz) ?_ ?_
  · cases hess
    · rw [if_neg (by simp)]
      refine (vec_copy_safe (Vec.uninit junk sz) ⟨m.rows, v2⟩ (by simp [Vec.WF, hv2]) ?_).mono ?_
      · simp only [Vec.uninit_len]
        exact (h4 rfl).ge
      · rintro ⟨_, v⟩ ⟨b1, b2⟩
        simp only [Vec.uninit_len] at b2
        have := h4 rfl
        dsimp only at b1 ⊢
        exact ⟨by simp [Vec.WF, b1, b2, this], b2⟩
    · rw [if_pos rfl]
      refine (vec_get_subset_safe ⟨m.rows, v2⟩ (Vec.uninit junk sz) 1 sz (by simp [Vec.WF, hv2]) (Vec.wf_uninit _ _)
        (by have := h3 rfl; omega)).mono ?_
      rintro ⟨_, v⟩ ⟨b1, b2⟩
      simp only [Vec.uninit_sz, Vec.uninit_len] at b1 b2
      exact ⟨by simp [Vec.WF, b2, b1], b2⟩
  rintro ⟨_, v⟩ ⟨b1, b2⟩
  dsimp only at b1 b2 ⊢
  rw [rd_lt (by omega), ok_bind]
  refine (vec_norm_safe v b1).2.bind ?_
  intro nv _
  refine (vec_scalar_safe ⟨e1.sz, e1.data.set 0 (lit 1)⟩ _ (by simp [Vec.WF, a1, a2])).2.1.bind ?_
  rintro ⟨_, e⟩ ⟨c1, c2⟩
  dsimp only at c1 c2 ⊢
  refine (vec_add_safe v e v b1 (by simp [Vec.WF, c1, c2, a1, a2]) b1).bind ?_
  rintro ⟨_, v'⟩ l1
  dsimp only at l1 ⊢
  refine (vec_norm_safe v' (l1.wf b1)).2.bind ?_
  intro nv _
  refine (vec_scalar_safe v' nv (l1.wf b1)).2.2.bind ?_
  rintro ⟨_, v3⟩ l2
  dsimp only at l2 ⊢
  refine (mtx_from_arr_safe (Mtx.uninit junk sz 1) v3.data (Mtx.wf_uninit _ _ _) ?_).bind ?_
  · rw [l2.2, l1.2, b2]
    simp
  rintro ⟨_, mv⟩ l3
  dsimp only at l3 ⊢
  refine (mtx_trans_safe junk mv (Mtx.uninit junk 1 sz) (l3.wf (Mtx.wf_uninit _ _ _)) (Mtx.wf_uninit _ _ _) ?_).bind ?_
  · rw [l3.2.1]
    simp
  rintro ⟨_, mvt⟩ l4
  dsimp only at l4 ⊢
  refine (mtx_mult_safe mv mvt (Mtx.uninit junk sz sz) (l3.wf (Mtx.wf_uninit _ _ _)) (l4.wf (Mtx.wf_uninit _ _ _))
    (Mtx.wf_uninit _ _ _)).bind ?_
  rintro ⟨_, vvt⟩ l5
  dsimp only at l5 ⊢
  refine (mtx_init_safe (Mtx.uninit junk sz sz) (Mtx.wf_uninit _ _ _)).2.2.1.bind ?_
  rintro ⟨_, id⟩ l6
  dsimp only at l6 ⊢
  refine (mtx_scalar_mult_safe vvt _ (l5.wf (Mtx.wf_uninit _ _ _))).bind ?_
  rintro ⟨_, vvt'⟩ l7
  dsimp only at l7 ⊢
  refine (mtx_add_sub_safe id vvt' (Mtx.uninit junk sz sz) (l6.wf (Mtx.wf_uninit _ _ _))
    ((l5.trans l7).wf (Mtx.wf_uninit _ _ _)) (Mtx.wf_uninit _ _ _)).1.bind ?_
  rintro ⟨_, h2⟩ l8
  dsimp only at l8 ⊢
  refine (mtx_augm_diag_safe (junk 0) h2 h (l8.wf (Mtx.wf_uninit _ _ _)) hh).bind ?_
  rintro ⟨_, h'⟩ l9
  exact satp l9

/-- The state of the loop of `zsl_mtx_qrd`: six square matrices of one size. -/
def QrdShape (n : ℕ) (s : Mtx R × Mtx R × Mtx R × Mtx R × Mtx R × Mtx R) : Prop :=
  (s.1.rows = n ∧ s.1.cols = n ∧ s.1.WF) ∧ (s.2.1.rows = n ∧ s.2.1.cols = n ∧ s.2.1.WF) ∧
  (s.2.2.1.rows = n ∧ s.2.2.1.cols = n ∧ s.2.2.1.WF) ∧ (s.2.2.2.1.rows = n ∧ s.2.2.2.1.cols = n ∧ s.2.2.2.1.WF) ∧
  (s.2.2.2.2.1.rows = n ∧ s.2.2.2.2.1.cols = n ∧ s.2.2.2.2.1.WF) ∧
  (s.2.2.2.2.2.rows = n ∧ s.2.2.2.2.2.cols = n ∧ s.2.2.2.2.2.WF)

theorem Mtx.Like.sq {x y : Mtx R} {n : ℕ} (h : x.Like y) (hx : x.rows = n ∧ x.cols = n ∧ x.WF) : y.rows = n ∧ y.cols = n ∧ y.WF :=
  ⟨h.1.trans hx.1, h.2.1.trans hx.2.1, h.wf hx.2.2⟩

theorem reduceLoop_safe (junk : ℕ → R) (x0 : R) (r : Mtx R) (n g : ℕ) (hr : r.rows = n ∧ r.cols = n ∧ r.WF) (hg : g < n) :
    (mtxReduceLoop (n + 1) junk x0 r ⟨Mtx.uninit junk (n - g) (n - g), Mtx.uninit junk n n, Mtx.uninit junk n n⟩).sat
      fun st => st.mred.rows = n - g ∧ st.mred.cols = n - g ∧ st.mred.WF := by
  obtain ⟨f, hf⟩ := mkM_of_wf r hr.2.2
  rw [hr.1, hr.2.1] at hf
  obtain ⟨w, hw⟩ := mkM_of_wf (Mtx.uninit junk (n - g) (n - g)) (Mtx.wf_uninit _ _ _)
  simp only [Mtx.uninit_rows, Mtx.uninit_cols] at hw
  obtain ⟨d1, d2, _, _, hloop⟩ := reduceLoop_spec (n := n) junk x0 f (r.data.drop (n * n))
    ((Mtx.uninit junk (n - g) (n - g)).data.drop ((n - g) * (n - g))) (n - g) (by omega) g n (n + 1) w
    (Mtx.uninit junk n n).data (Mtx.uninit junk n n).data n n (by omega) le_rfl (by omega) (by simp) (by simp)
    (fun h => absurd h (lt_irrefl _))
  rw [← hf, ← hw] at hloop
  have e : (⟨n, n, (Mtx.uninit junk n n).data⟩ : Mtx R) = Mtx.uninit junk n n := rfl
  rw [e] at hloop
  rw [hloop]
  exact satp ⟨rfl, rfl, by simp [Mtx.WF, mkM]⟩

theorem qrdStep_safe (junk : ℕ → R) (n g : ℕ) (hess : Bool) (s : Mtx R × Mtx R × Mtx R × Mtx R × Mtx R × Mtx R)
    (hs : QrdShape n s) (hg : g + 1 < n) (hsz : n < SIZE_MOD) :
    (qrdStep junk n n hess g s).sat fun s' => QrdShape n s' ∧ s.2.2.2.2.2.Like s'.2.2.2.2.2 := by
  obtain ⟨r2, he, h, h2, qt, r⟩ := s
  obtain ⟨c1, c2, c3, c4, c5, c6⟩ := hs
  dsimp only at c1 c2 c3 c4 c5 c6
  unfold qrdStep
  dsimp only
  rw [szSub_le (by omega), c6.1, c6.2.1]
  refine (reduceLoop_safe junk (junk 0) r n g c6 (by omega)).bind ?_
  rintro st ⟨e1, e2, e3⟩
  refine (mtx_householder_safe junk st.mred (Mtx.uninit junk (n - g) (n - g)) hess e3 (Mtx.wf_uninit _ _ _) (by omega)
    (by omega) (by omega)).bind ?_
  rintro ⟨_, hred⟩ l1
  dsimp only at l1 ⊢
  refine (mtx_augm_diag_safe (junk 0) hred h (l1.wf (Mtx.wf_uninit _ _ _)) c3.2.2).bind ?_
  rintro ⟨_, h'⟩ l2
  dsimp only at l2 ⊢
  have c3 := l2.sq c3
  refine (mtx_mult_safe h' r r2 c3.2.2 c6.2.2 c1.2.2).bind ?_
  rintro ⟨_, r2'⟩ l3
  dsimp only at l3 ⊢
  have c1 := l3.sq c1
  refine (mtx_mult_safe h' qt h2 c3.2.2 c5.2.2 c4.2.2).bind ?_
  rintro ⟨_, h2'⟩ l4
  dsimp only at l4 ⊢
  have c4 := l4.sq c4
  refine (mtx_copy_safe qt h2' c5.2.2 c4.2.2).bind ?_
  rintro ⟨_, qt'⟩ l5
  dsimp only at l5 ⊢
  have c5 := l5.sq c5
  refine ite_sat (fun _ => ?_) fun _ => ?_
  · refine (mtx_mult_safe r2' h' he c1.2.2 c3.2.2 c2.2.2).bind ?_
    rintro ⟨_, he'⟩ l6
    dsimp only at l6 ⊢
    have c2 := l6.sq c2
    refine (mtx_copy_safe r he' c6.2.2 c2.2.2).bind ?_
    rintro ⟨_, r'⟩ l7
    exact satp ⟨⟨c1, c2, c3, c4, c5, l7.sq c6⟩, l7⟩
  · refine (mtx_copy_safe r r2' c6.2.2 c1.2.2).bind ?_
    rintro ⟨_, r'⟩ l7
    exact satp ⟨⟨c1, c2, c3, c4, c5, l7.sq c6⟩, l7⟩

/-- C117. `zsl_mtx_qrd` of a square matrix, with or without reduction to Hessenberg form; `q` may have any shape, `r` must be as
large as the matrix. -/
theorem mtx_qrd_safe (junk : ℕ → R) (m q r : Mtx R) (hess : Bool) (h : m.WF) (hq : q.WF) (hr : r.WF) (hsq : m.rows = m.cols)
    (h0 : 0 < m.rows) (hrr : r.rows = m.rows) (hrc : r.cols = m.rows) (hsz : m.rows < SIZE_MOD) :
    (mtxQrd junk m q r hess).sat fun p => q.Like p.2.1 ∧ r.Like p.2.2 := by
  unfold mtxQrd
  rw [if_neg (by omega), ← hsq]
  refine (mtx_init_safe (Mtx.uninit junk m.rows m.rows) (Mtx.wf_uninit _ _ _)).1.bind ?_
  rintro ⟨_, hh⟩ l1
  refine (mtx_init_safe (Mtx.uninit junk m.rows m.rows) (Mtx.wf_uninit _ _ _)).2.2.1.bind ?_
  rintro ⟨_, qt⟩ l2
  refine (mtx_copy_safe r m hr h).bind ?_
  rintro ⟨_, r'⟩ l3
  dsimp only at l1 l2 l3 ⊢
  have hu : (Mtx.uninit junk m.rows m.rows).rows = m.rows ∧ (Mtx.uninit junk m.rows m.rows).cols = m.rows ∧
    (Mtx.uninit junk m.rows m.rows).WF := ⟨rfl, rfl, Mtx.wf_uninit _ _ _⟩
  refine Out.sat.bind (P := fun s => QrdShape m.rows s ∧ r.Like s.2.2.2.2.2) ?_ ?_
  · refine forN_inv _ ⟨⟨hu, hu, l1.sq hu, hu, l2.sq hu, l3.sq ⟨hrr, hrc, hr⟩⟩, l3⟩ fun g hg s hs => ?_
    rw [szSub_le (by omega)] at hg
    exact (qrdStep_safe junk m.rows g hess s hs.1 (by omega) hsz).mono fun s' h' => ⟨h'.1, hs.2.trans h'.2⟩
  · rintro ⟨_, _, _, _, qt, r2⟩ ⟨hs, l4⟩
    have c5 : qt.rows = m.rows ∧ qt.cols = m.rows ∧ qt.WF := hs.2.2.2.2.1
    dsimp only at l4 ⊢
    refine (mtx_trans_safe junk qt q c5.2.2 hq (by rw [c5.2.1]; exact h0)).bind ?_
    rintro ⟨_, q'⟩ l5
    exact satp ⟨l5, l4⟩

/-- C117. `zsl_mtx_qrd_iter` of a square matrix, for every number of iterations and every output shape. -/
theorem mtx_qrd_iter_safe (junk : ℕ → R) (m mo : Mtx R) (iter : ℕ) (h : m.WF) (ho : mo.WF) (hsq : m.rows = m.cols) (h0 : 0 < m.rows)
    (hsz : m.rows < SIZE_MOD) : (mtxQrdIter junk m mo iter).sat fun p => mo.Like p.2 := by
  unfold mtxQrdIter
  rw [if_neg (by omega)]
  by_cases hne : mo.rows ≠ m.rows ∨ mo.cols ≠ m.cols
  · have e : mtxCopy mo m = ok (-EINVAL, mo) := if_pos hne
    rw [e, ok_bind]
    exact ite_sat (fun _ => satp (.refl _)) fun h => absurd h (by simp [EINVAL])
  · refine (mtx_copy_safe mo m ho h).bind ?_
    rintro ⟨rc, mo'⟩ l1
    dsimp only at l1 ⊢
    refine ite_sat (fun _ => satp l1) fun _ => ?_
    push Not at hne
    have hu : (Mtx.uninit junk m.rows m.rows).rows = m.rows ∧ (Mtx.uninit junk m.rows m.rows).cols = m.rows ∧
      (Mtx.uninit junk m.rows m.rows).WF := ⟨rfl, rfl, Mtx.wf_uninit _ _ _⟩
    refine Out.sat.bind (P := fun s : Mtx R × Mtx R × Mtx R => (s.1.rows = m.rows ∧ s.1.cols = m.rows ∧ s.1.WF) ∧
      (s.2.1.rows = m.rows ∧ s.2.1.cols = m.rows ∧ s.2.1.WF) ∧ mo.Like s.2.2) ?_ (by rintro ⟨_, _, s⟩ hs; exact satp hs.2.2)
    refine forN_inv _ ⟨hu, hu, l1⟩ ?_
    rintro i hi ⟨q, r, a⟩ ⟨cq, cr, la⟩
    dsimp only at cq cr la ⊢
    have ha : a.rows = m.rows ∧ a.cols = m.rows ∧ a.WF := ⟨la.1.trans hne.1, la.2.1.trans (by omega), la.wf ho⟩
    refine (mtx_qrd_safe junk a q r false ha.2.2 cq.2.2 cr.2.2 (by omega) (by omega) (by omega) (by omega) (by omega)).bind ?_
    rintro ⟨_, q', r'⟩ ⟨lq, lr⟩
    dsimp only at lq lr ⊢
    have cq := lq.sq cq
    have cr := lr.sq cr
    refine (mtx_mult_safe r' q' a cr.2.2 cq.2.2 ha.2.2).bind ?_
    rintro ⟨_, a'⟩ l
    exact satp ⟨cq, cr, la.trans l⟩

end Verif
