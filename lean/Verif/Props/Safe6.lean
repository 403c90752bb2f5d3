import Verif.Props.Safe5

/-!
# Memory safety of `zsl_mtx_eigenvectors` (C117)

The function stores as many columns as it finds, and that number is not limited by the size of the matrix: `mtx_eigenvectors_overflow`
(Props/Eigen3) is a 3x3 matrix for which it stores four. It is safe when the output buffer has room for rows * rows columns.
-/

namespace Verif

open Out

set_option linter.unusedSectionVars false

variable {R : Type} [CReal R]

/-- The two zero tests of `zsl_mtx_eigenvectors` exclude each other. It holds of every IEEE format. -/
def ZeroTests (R : Type) [CReal R] : Prop := ∀ a : R,
  (CReal.lt (a - lit 0) (lit 1e-6) && CReal.lt (-(a - lit 0)) (lit 1e-6)) = true →
    (CReal.ge a (lit 1e-6) || CReal.le a (-lit 1e-6)) = false

theorem zeroTests_xr : ZeroTests XR := by
  intro a h
  cases a with
  | fin r =>
    simp only [XR.lit_eq, XR.fin_sub, XR.fin_neg, XR.fin_lt, Bool.and_eq_true, CReal.ge, Bool.or_eq_false_iff] at h ⊢
    norm_num at h ⊢
    constructor <;> linarith
  | pinf => rw [show CReal.lt (XR.pinf - lit 0 : XR) (lit 1e-6) = false from rfl] at h; simp at h
  | ninf => rw [show CReal.lt (-(XR.ninf - lit 0) : XR) (lit 1e-6) = false from rfl] at h; simp at h
  | nan => rw [show CReal.lt (XR.nan - lit 0 : XR) (lit 1e-6) = false from rfl] at h; simp at h

theorem vecContains_pos (v : Vec R) (x eps : R) (hv : v.WF) :
    (vecContains v x eps).sat fun c => 0 < c → ∃ i, ∃ h : i < v.data.length, i < v.sz ∧
      (CReal.lt (v.data[i] - x) eps && CReal.lt (-(v.data[i] - x)) eps) = true := by
  unfold Vec.WF at hv
  unfold vecContains
  refine forN_inv _ (by simp) fun i hi c hc => ?_
  rw [rd_lt (by omega), ok_bind]
  refine satp fun h => ?_
  by_cases ht : (CReal.lt (v.data[i] - x) eps && CReal.lt (-(v.data[i] - x)) eps) = true
  · exact ⟨i, by omega, hi, ht⟩
  · rw [if_neg ht] at h
    exact hc h

/-- Number of positions below `q` with a value the search of different eigenvalues looks at. -/
def liveCount (d : List R) (q : ℕ) : ℕ :=
  ((d.take q).filter fun a => CReal.ge a (lit 1e-6) || CReal.le a (-lit 1e-6)).length

theorem liveCount_succ (d : List R) (q : ℕ) (h : q < d.length) :
    liveCount d (q + 1) = liveCount d q + if (CReal.ge d[q] (lit 1e-6) || CReal.le d[q] (-lit 1e-6)) = true then 1 else 0 := by
  unfold liveCount
  rw [List.take_succ_eq_append_getElem h, List.filter_append, List.length_append]
  congr 1
  split <;> rename_i h <;> simp_all

theorem distinctEigen_safe (hz : ZeroTests R) (rows : ℕ) (k o : Vec R) (hk : k.data.length = rows) (hks : k.sz ≤ rows) (ho : o.Full rows) :
    (distinctEigen rows k o).sat fun p => p.1.Full rows ∧ p.2 ≤ rows := by
  unfold distinctEigen
  refine Out.sat.bind (P := fun s : Vec R × ℕ => s.1.Full rows ∧ s.2 ≤ liveCount k.data rows) ?_ ?_
  · refine forN_sat (fun q (s : Vec R × ℕ) => s.1.Full rows ∧ s.2 ≤ liveCount k.data q) ⟨ho, by simp⟩ ?_
    rintro q hq ⟨o, n⟩ ⟨ho, hn⟩
    dsimp only at ho hn ⊢
    have hs := liveCount_succ k.data q (by omega)
    have hle : liveCount k.data q ≤ q := by
      unfold liveCount
      refine (List.length_filter_le _ _).trans ?_
      simp
    rw [rd_lt (by omega), ok_bind, ok_bind]
    refine ite_sat (fun ht => ?_) fun ht => ?_
    · rw [if_pos ht] at hs
      refine (vec_tests_safe o o k.data[q] (lit 1e-6) ho.wf ho.wf).2.2.bind ?_
      intro c _
      refine ite_sat (fun _ => ?_) fun _ => satp ⟨ho, by dsimp only; omega⟩
      have hol := ho.2
      rw [wr_lt _ (by omega), ok_bind]
      exact satp ⟨ho.data (by simp), by dsimp only; omega⟩
    · exact satp ⟨ho, by dsimp only; omega⟩
  · rintro ⟨o, n⟩ ⟨ho, hn⟩
    dsimp only at ho hn ⊢
    have hle : liveCount k.data rows ≤ rows := by
      unfold liveCount
      refine (List.length_filter_le _ _).trans ?_
      simp
    refine (vecContains_pos k (lit 0) (lit 1e-6) (by unfold Vec.WF; omega)).bind ?_
    intro c hc
    refine satp ⟨ho, ?_⟩
    dsimp only
    split
    · obtain ⟨i, hi, hi', ht⟩ := hc ‹_›
      have := hz _ ht
      suffices liveCount k.data rows < rows by omega
      unfold liveCount
      rw [← hk, List.take_length]
      refine List.length_filter_lt_length_iff_exists.2 ⟨k.data[i], List.getElem_mem hi, ?_⟩
      rw [this]
      simp
    · omega

theorem collectEigen_safe (rows : ℕ) (x0 : R) (mi : Mtx R) (f : Vec R) (dst : Mtx R) (b : ℕ)
    (hm : mi.rows = rows ∧ mi.cols = rows ∧ mi.WF) (hf : f.Full rows) (hd : dst.WF) (hr : dst.rows ≤ rows) :
    (collectEigen rows x0 mi f dst b).sat fun p => (p.1.rows = rows ∧ p.1.cols = rows ∧ p.1.WF) ∧ p.2.1.Full rows ∧
      dst.Like p.2.2.1 ∧ p.2.2.2 ≤ b + rows := by
  unfold collectEigen
  refine Out.sat.bind (P := fun s : R × Mtx R × Vec R × Mtx R × ℕ => (s.2.1.rows = rows ∧ s.2.1.cols = rows ∧ s.2.1.WF) ∧
    s.2.2.1.Full rows ∧ dst.Like s.2.2.2.1 ∧ s.2.2.2.2 ≤ b + rows) ?_ (by rintro ⟨_, _, _, _, _⟩ hs; exact satp hs)
  refine forN_sat (fun h (s : R × Mtx R × Vec R × Mtx R × ℕ) => (s.2.1.rows = rows ∧ s.2.1.cols = rows ∧ s.2.1.WF) ∧
    s.2.2.1.Full rows ∧ dst.Like s.2.2.2.1 ∧ s.2.2.2.2 ≤ b + h) ⟨hm, hf, .refl _, le_rfl⟩ ?_
  rintro h hh ⟨x, mi, f, a, n⟩ ⟨hm, hf, la, hn⟩
  dsimp only at hm hf la hn ⊢
  refine (mtx_get_safe mi h h x hm.2.2).bind ?_
  rintro ⟨_, x⟩ _
  dsimp only
  refine ite_sat (fun _ => ?_) fun _ => satp ⟨hm, hf, la, by dsimp only; omega⟩
  refine (mtx_set_safe mi h h _ hm.2.2).bind ?_
  rintro ⟨_, mi'⟩ lm
  dsimp only at lm ⊢
  have hm := lm.sq hm
  refine (mtx_get_col_safe mi' h f.data hm.2.2 (by rw [hm.1, hf.2])).bind ?_
  rintro ⟨_, fd⟩ hfd
  dsimp only at hfd ⊢
  have hf := hf.data hfd
  refine (vec_neg_safe _ hf.wf).bind ?_
  rintro ⟨_, f'⟩ lf
  dsimp only at lf ⊢
  have hf := lf.full hf
  refine (mtx_set_col_safe a n f'.data (la.wf hd) (by rw [la.1, hf.2]; exact hr)).bind ?_
  rintro ⟨_, a'⟩ l
  exact satp ⟨hm, hf, la.trans l, by dsimp only; omega⟩

/-- The locals of `zsl_mtx_eigenvectors` keep their sizes. -/
def EvShape (n : ℕ) (s : Mtx R × Mtx R × Mtx R × Mtx R × Vec R × Mtx R × ℕ) : Prop :=
  (s.1.rows = n ∧ s.1.cols = n ∧ s.1.WF) ∧ (s.2.1.rows = n ∧ s.2.1.cols = n ∧ s.2.1.WF) ∧
  (s.2.2.1.rows = n ∧ s.2.2.1.data.length = n * n) ∧ (s.2.2.2.1.rows = n ∧ s.2.2.2.1.data.length = n * n) ∧
  s.2.2.2.2.1.Full n ∧ (s.2.2.2.2.2.1.rows = n ∧ s.2.2.2.2.2.1.cols = n ∧ s.2.2.2.2.2.1.WF)

theorem eigenvectorsOf_safe (junk : ℕ → R) (m : Mtx R) (orth : Bool) (o : R) (n : ℕ)
    (s : Mtx R × Mtx R × Mtx R × Mtx R × Vec R × Mtx R × ℕ) (hm : m.WF) (hn : m.rows = n) (h0 : 0 < n) (hs : EvShape n s) :
    (eigenvectorsOf junk m orth o s).sat fun p => EvShape n p ∧ p.2.2.2.2.2.2 ≤ s.2.2.2.2.2.2 + n := by
  obtain ⟨mid, mi, ev, ev2, f, mev, b⟩ := s
  obtain ⟨c1, c2, c3, c4, c5, c6⟩ := hs
  dsimp only at c1 c2 c3 c4 c5 c6
  unfold eigenvectorsOf
  dsimp only
  rw [hn]
  have hu : (Mtx.uninit junk n n).rows = n ∧ (Mtx.uninit junk n n).cols = n ∧ (Mtx.uninit junk n n).WF :=
    ⟨rfl, rfl, Mtx.wf_uninit _ _ _⟩
  refine (mtx_init_safe _ hu.2.2).2.2.1.bind ?_
  rintro ⟨_, id⟩ l1
  dsimp only at l1 ⊢
  have hid := l1.sq hu
  refine (mtx_scalar_mult_safe id _ hid.2.2).bind ?_
  rintro ⟨_, id2⟩ l2
  dsimp only at l2 ⊢
  have hid := l2.sq hid
  refine (mtx_add_sub_safe id2 m id2 hid.2.2 hm hid.2.2).2.2.1.bind ?_
  rintro ⟨_, id3⟩ l3
  dsimp only at l3 ⊢
  have hid := l3.sq hid
  refine (mtx_gauss_reduc_safe junk id3 mid mi hid.2.2 c1.2.2 c2.2.2 (by rw [hid.1]; exact h0) (by rw [hid.1, c2.1])
    (by rw [c2.1, c2.2.1]) (by rw [c1.1, c1.2.1])).bind ?_
  rintro ⟨_, mid', mi'⟩ ⟨l4, l5⟩
  dsimp only at l4 l5 ⊢
  have c1 := l4.sq c1
  have c2 := l5.sq c2
  refine ite_sat (fun _ => ?_) fun _ => ?_
  · refine Out.sat.bind (P := fun p : R × ℕ => p.2 ≤ n) ?_ ?_
    · refine forN_sat (fun h (p : R × ℕ) => p.2 ≤ h) le_rfl ?_
      rintro h hh ⟨x, c⟩ hc
      dsimp only at hc ⊢
      refine (mtx_get_safe mi' h h x c2.2.2).bind ?_
      rintro ⟨_, x⟩ _
      refine satp ?_
      dsimp only
      split <;> omega
    rintro ⟨_, c⟩ hc
    dsimp only at hc ⊢
    have hcn : n * c ≤ n * n := Nat.mul_le_mul_left _ hc
    have hw : ∀ a : Mtx R, a.rows = n → a.data.length = n * n → (⟨a.rows, c, a.data⟩ : Mtx R).WF := by
      intro a h1 h2
      unfold Mtx.WF
      dsimp only
      rw [h1, h2]
      exact hcn
    refine (collectEigen_safe n (junk 0) mi' f ⟨ev.rows, c, ev.data⟩ 0 c2 c5 (hw ev c3.1 c3.2) c3.1.le).bind ?_
    rintro ⟨mi2, f2, ev', _⟩ ⟨d1, d2, d3, _⟩
    dsimp only at d1 d2 d3 ⊢
    have e3 : ev'.rows = n ∧ ev'.data.length = n * n := ⟨d3.1.trans c3.1, d3.2.2.trans c3.2⟩
    refine (mtx_gram_schmidt_safe junk ev' ⟨ev2.rows, c, ev2.data⟩ (d3.wf (hw ev c3.1 c3.2)) (hw ev2 c4.1 c4.2)
      (by rw [e3.1]; exact h0) (by rw [e3.1]; exact c4.1.le)).bind ?_
    rintro ⟨_, ev2'⟩ l6
    dsimp only at l6 ⊢
    have e4 : ev2'.rows = n ∧ ev2'.data.length = n * n := ⟨l6.1.trans c4.1, l6.2.2.trans c4.2⟩
    refine (mtx_cols_norm_safe junk ev2' ev' (l6.wf (hw ev2 c4.1 c4.2)) (d3.wf (hw ev c3.1 c3.2)) (by rw [e4.1]; exact h0)
      (by rw [e3.1, e4.1])).bind ?_
    rintro ⟨_, ev3⟩ l7
    dsimp only at l7 ⊢
    have e5 : ev3.rows = n ∧ ev3.data.length = n * n := ⟨l7.1.trans e3.1, l7.2.2.trans e3.2⟩
    refine Out.sat.bind (P := fun p : Vec R × Mtx R × ℕ => p.1.Full n ∧ (p.2.1.rows = n ∧ p.2.1.cols = n ∧ p.2.1.WF) ∧
      p.2.2 ≤ b + n) ?_ ?_
    · refine (forN_sat (fun i (p : Vec R × Mtx R × ℕ) => p.1.Full n ∧ (p.2.1.rows = n ∧ p.2.1.cols = n ∧ p.2.1.WF) ∧
        p.2.2 ≤ b + i) ⟨d2, c6, le_rfl⟩ ?_).mono ?_
      · rintro i hi ⟨f, mev, b'⟩ ⟨hf, hmev, hb⟩
        dsimp only at hf hmev hb ⊢
        refine (mtx_get_col_safe ev3 i f.data (l7.wf (d3.wf (hw ev c3.1 c3.2))) (by rw [e5.1, hf.2])).bind ?_
        rintro ⟨_, fd⟩ hfd
        dsimp only at hfd ⊢
        refine (mtx_set_col_safe mev b' fd hmev.2.2 (by rw [hfd, hf.2, hmev.1])).bind ?_
        rintro ⟨_, mev'⟩ l
        exact satp ⟨hf.data hfd, l.sq hmev, Nat.succ_le_succ hb⟩
      · rintro p ⟨p1, p2, p3⟩
        exact ⟨p1, p2, p3.trans (Nat.add_le_add_left hc b)⟩
    · rintro ⟨f', mev', b'⟩ ⟨p1, p2, p3⟩
      exact satp ⟨⟨c1, d1, e5, e4, p1, p2⟩, p3⟩
  · refine (collectEigen_safe n (junk 0) mi' f mev b c2 c5 c6.2.2 c6.1.le).bind ?_
    rintro ⟨mi2, f2, mev', b'⟩ ⟨d1, d2, d3, d4⟩
    exact satp ⟨⟨c1, d1, c3, c4, d2, d3.sq c6⟩, d4⟩

/-- C117. `zsl_mtx_eigenvectors`: once the balancing step has returned, the rest stays within the buffers, provided the output buffer
has room for rows * rows columns. -/
theorem mtx_eigenvectors_safe_partial (hz : ZeroTests R) (fuel : ℕ) (junk : ℕ → R) (m mev : Mtx R) (iter : ℕ) (orth : Bool) (h : m.WF)
    (h0 : 0 < m.rows) (hsz : m.rows < SIZE_MOD) (hr : mev.rows ≤ m.rows) (hbuf : mev.rows * (m.rows * m.rows) ≤ mev.data.length)
    (b : Int × Mtx R) (hb : mtxBalance fuel junk m (Mtx.uninit junk m.rows m.rows) = ok b) :
    (mtxEigenvectors fuel junk m mev iter orth).sat fun p =>
      p.2.rows = mev.rows ∧ p.2.data.length = mev.data.length ∧ p.2.cols ≤ m.rows * m.rows := by
  unfold mtxEigenvectors
  rw [if_neg (by omega)]
  have hu : (Mtx.uninit junk m.rows m.rows).rows = m.rows ∧ (Mtx.uninit junk m.rows m.rows).cols = m.rows ∧
    (Mtx.uninit junk m.rows m.rows).WF := ⟨rfl, rfl, Mtx.wf_uninit _ _ _⟩
  refine (mtx_init_safe _ hu.2.2).1.bind ?_
  rintro ⟨_, mev2⟩ l1
  dsimp only at l1 ⊢
  refine (vec_init_safe _ (Vec.wf_uninit junk m.rows)).bind ?_
  rintro ⟨_, o⟩ l2
  dsimp only at l2 ⊢
  refine (mtx_eigenvalues_safe fuel junk m (Vec.uninit junk m.rows) iter h (Vec.wf_uninit _ _) (by simp) h0 hsz b hb).bind ?_
  rintro ⟨_, k⟩ ⟨k1, k2⟩
  simp only [Vec.uninit_len, Vec.uninit_sz] at k1 k2
  dsimp only at k1 k2 ⊢
  refine (distinctEigen_safe hz m.rows k o k1 (by omega) (l2.full (Vec.full_uninit _ _))).bind ?_
  rintro ⟨o', n⟩ ⟨o1, hn⟩
  dsimp only at o1 hn ⊢
  refine Out.sat.bind (P := fun s => EvShape m.rows s ∧ s.2.2.2.2.2.2 ≤ n * m.rows) ?_ ?_
  · refine forN_sat (fun g s => EvShape m.rows s ∧ s.2.2.2.2.2.2 ≤ g * m.rows)
      ⟨⟨hu, hu, ⟨rfl, by simp⟩, ⟨rfl, by simp⟩, Vec.full_uninit _ _, l1.sq hu⟩, by simp⟩ ?_
    rintro g hg s ⟨hs, hb⟩
    have := o1.2
    rw [rd_lt (by omega), ok_bind]
    refine (eigenvectorsOf_safe junk m orth _ m.rows s h rfl h0 hs).mono fun p hp => ⟨hp.1, ?_⟩
    rw [Nat.add_mul, Nat.one_mul]
    omega
  · rintro ⟨_, _, _, _, f, mev2, b⟩ ⟨hs, hbn⟩
    have c5 : f.Full m.rows := hs.2.2.2.2.1
    have c6 : mev2.rows = m.rows ∧ mev2.cols = m.rows ∧ mev2.WF := hs.2.2.2.2.2
    clear hs
    have hbb : b ≤ m.rows * m.rows := hbn.trans (Nat.mul_le_mul_right _ hn)
    dsimp only
    have hw : (⟨mev.rows, b, mev.data⟩ : Mtx R).WF := by
      unfold Mtx.WF
      dsimp only
      exact (Nat.mul_le_mul_left _ hbb).trans hbuf
    refine Out.sat.bind (P := fun s : List R × Mtx R => s.1.length = m.rows ∧ (⟨mev.rows, b, mev.data⟩ : Mtx R).Like s.2) ?_ ?_
    · refine forN_inv _ ⟨c5.2, .refl _⟩ ?_
      rintro s hs ⟨fd, a⟩ ⟨hf, la⟩
      dsimp only at hf la ⊢
      refine (mtx_get_col_safe mev2 s fd c6.2.2 (by rw [c6.1, hf])).bind ?_
      rintro ⟨_, fd'⟩ hfd
      dsimp only at hfd ⊢
      refine (mtx_set_col_safe a s fd' (la.wf hw) (by rw [la.1, hfd, hf]; exact hr)).bind ?_
      rintro ⟨_, a'⟩ l
      exact satp ⟨hfd.trans hf, la.trans l⟩
    · rintro ⟨_, a⟩ ⟨_, la⟩
      dsimp only at la ⊢
      have : a.rows = mev.rows ∧ a.data.length = mev.data.length ∧ a.cols ≤ m.rows * m.rows :=
        ⟨la.1, la.2.2, by rw [la.2.1]; exact hbb⟩
      exact ite_sat (fun _ => satp this) fun _ => satp this

end Verif
