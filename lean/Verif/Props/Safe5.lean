import Verif.Props.Safe4
import Verif.Props.Decomp4

/-!
# Memory safety of balancing, eigenvalues and eigenvectors for every content (C117)

`zsl_mtx_balance` need not terminate (C30), and the model has one outcome for that and for a bad memory access. So its safety is
stated as independence: the result, including whether there is one, is the same with any number of further cells after the matrix,
and they keep their content.
-/

namespace Verif

open Out

set_option linter.unusedSectionVars false

variable {R : Type} [CReal R]

theorem forN_lift {σ : Type} {n : ℕ} {f : ℕ → σ → Out σ} {s : σ} (L : σ → σ) (P : σ → Prop) (h0 : P s)
    (hs : ∀ i, i < n → ∀ t, P t → (f i (L t) = f i t >>= fun x => ok (L x)) ∧ (f i t).post P) :
    (forN n f (L s) = forN n f s >>= fun x => ok (L x)) ∧ (forN n f s).post P := by
  induction n with
  | zero => exact ⟨rfl, Out.post_ok h0⟩
  | succ n ih =>
    obtain ⟨h1, h2⟩ := ih fun i hi => hs i (by omega)
    rw [forN_succ, forN_succ, h1]
    cases hc : forN n f s with
    | ub => exact ⟨rfl, by rintro _ ⟨⟩⟩
    | ok t =>
      obtain ⟨h3, h4⟩ := hs n (by omega) t (h2 t hc)
      exact ⟨h3, h4⟩

theorem rd_append {d e : List R} {i : ℕ} (h : i < d.length) : rd (d ++ e) i = rd d i := by
  rw [rd_lt h, rd_lt (by simp; omega), List.getElem_append_left h]

theorem wr_append {d e : List R} {i : ℕ} (x : R) (h : i < d.length) : wr (d ++ e) i x = ok (d.set i x ++ e) := by
  rw [wr_lt x (by simp; omega), List.set_append_left _ _ h]

theorem balanceRow_lift (fuel n i : ℕ) (e : List R) (k : ℕ) (hi : i < n) (hk : n * n ≤ k) (s : Bool × R × R × List R)
    (hs : s.2.2.2.length = k) :
    (balanceRow fuel n i (s.1, s.2.1, s.2.2.1, s.2.2.2 ++ e) =
      balanceRow fuel n i s >>= fun x => ok (x.1, x.2.1, x.2.2.1, x.2.2.2 ++ e)) ∧
      (balanceRow fuel n i s).post fun x => x.2.2.2.length = k := by
  obtain ⟨done, row, col, d⟩ := s
  dsimp only at hs ⊢
  have h1 : ∀ j, j < n → i * n + j < d.length ∧ j * n + i < d.length := fun j hj => by
    have a := flat_lt hi hj
    have b := flat_lt hj hi
    omega
  unfold balanceRow
  dsimp only
  have e1 : forN n (fun j (s : R × R) => (do
      let a ← rd (d ++ e) (i * n + j)
      let b ← rd (d ++ e) (j * n + i)
      return (s.1 + CReal.abs a, s.2 + CReal.abs b) : Out (R × R))) (row, col) = forN n (fun j (s : R × R) => (do
      let a ← rd d (i * n + j)
      let b ← rd d (j * n + i)
      return (s.1 + CReal.abs a, s.2 + CReal.abs b) : Out (R × R))) (row, col) := by
    refine forN_congr fun j hj t => ?_
    rw [rd_append (h1 j hj).1, rd_append (h1 j hj).2]
  rw [e1]
  generalize forN n _ (row, col) = o
  cases o with
  | ub => exact ⟨rfl, by rintro _ ⟨⟩⟩
  | ok rc =>
    simp only [ok_bind]
    split
    · generalize balanceUp (R := R) fuel _ _ _ = o
      cases o with
      | ub => exact ⟨rfl, by rintro _ ⟨⟩⟩
      | ok cc =>
        simp only [ok_bind]
        generalize balanceDown (R := R) fuel _ _ _ = o
        cases o with
        | ub => exact ⟨rfl, by rintro _ ⟨⟩⟩
        | ok cc =>
          simp only [ok_bind]
          split
          · obtain ⟨l1, l2⟩ := forN_lift (n := n) (f := fun k d => (do
              let a ← rd d (i * n + k)
              let d ← wr d (i * n + k) (a * (lit 1 / cc.2))
              let b ← rd d (k * n + i)
              wr d (k * n + i) (b * cc.2) : Out (List R))) (s := d) (fun d => d ++ e) (fun d => d.length = k) hs (by
                intro j hj t ht
                have a := flat_lt hi hj
                have b := flat_lt hj hi
                rw [rd_append (by omega), rd_lt (show i * n + j < t.length by omega), ok_bind, ok_bind, wr_append _ (by omega),
                  wr_lt _ (show i * n + j < t.length by omega), ok_bind, ok_bind, rd_append (by simp; omega),
                  rd_lt (by simp; omega), ok_bind, ok_bind, wr_append _ (by simp; omega), wr_lt _ (by simp; omega)]
                exact ⟨rfl, Out.post_ok (by simp [ht])⟩)
            rw [l1]
            cases hc : forN n (fun k d => (do
              let a ← rd d (i * n + k)
              let d ← wr d (i * n + k) (a * (lit 1 / cc.2))
              let b ← rd d (k * n + i)
              wr d (k * n + i) (b * cc.2) : Out (List R))) d with
            | ub => exact ⟨rfl, by rintro _ ⟨⟩⟩
            | ok d' => exact ⟨rfl, Out.post_ok (l2 d' hc)⟩
          · exact ⟨rfl, Out.post_ok hs⟩
    · exact ⟨rfl, Out.post_ok hs⟩

theorem balanceLoop_lift (n : ℕ) (e : List R) (k : ℕ) (hk : n * n ≤ k) : ∀ (fuel : ℕ) (row col : R) (d : List R), d.length = k →
    (balanceLoop fuel n row col (d ++ e) = balanceLoop fuel n row col d >>= fun x => ok (x ++ e)) ∧
      (balanceLoop fuel n row col d).post fun x => x.length = k := by
  intro fuel
  induction fuel with
  | zero => intro row col d hd; exact ⟨rfl, by rintro _ ⟨⟩⟩
  | succ fuel ih =>
    intro row col d hd
    rw [balanceLoop, balanceLoop]
    obtain ⟨l1, l2⟩ := forN_lift (n := n) (f := fun i s => balanceRow (fuel + 1) n i s) (s := (true, row, col, d))
      (fun s => (s.1, s.2.1, s.2.2.1, s.2.2.2 ++ e)) (fun s => s.2.2.2.length = k) hd
      fun i hi t ht => balanceRow_lift (fuel + 1) n i e k hi hk t ht
    dsimp only at l1
    rw [l1]
    cases hc : forN n (fun i s => balanceRow (fuel + 1) n i s) (true, row, col, d) with
    | ub => exact ⟨rfl, by rintro _ ⟨⟩⟩
    | ok s =>
      obtain ⟨done, row, col, d⟩ := s
      have := l2 _ hc
      simp only [ok_bind]
      split
      · exact ⟨rfl, Out.post_ok this⟩
      · exact ih row col d this

/-- C117. `zsl_mtx_balance`, for every pair of shapes: whatever cells follow the output matrix, the call has the same result, ends
or does not end alike, and leaves those cells alone; when it returns, the shape is kept. -/
theorem mtx_balance_safe (fuel : ℕ) (junk : ℕ → R) (m mo : Mtx R) (extra : List R) (h : m.WF) (ho : mo.WF) :
    (mtxBalance fuel junk m ⟨mo.rows, mo.cols, mo.data ++ extra⟩ =
      mtxBalance fuel junk m mo >>= fun p => ok (p.1, ⟨p.2.rows, p.2.cols, p.2.data ++ extra⟩)) ∧
      (mtxBalance fuel junk m mo).post fun p => mo.Like p.2 := by
  unfold mtxBalance
  dsimp only
  split
  · exact ⟨rfl, Out.post_ok (.refl _)⟩
  split
  · exact ⟨rfl, Out.post_ok (.refl _)⟩
  split
  · exact ⟨rfl, Out.post_ok (.refl _)⟩
  rename_i h1 h2 h3
  push Not at h1 h2 h3
  unfold mtxCopy
  dsimp only
  rw [if_neg (by omega), if_neg (by omega)]
  unfold Mtx.WF at h ho
  have hc : m.rows * m.cols ≤ mo.data.length := by
    rw [h2, h3]
    exact ho
  obtain ⟨l1, l2⟩ := forN_lift (n := m.rows * m.cols) (f := fun i d => (do
    let x ← rd m.data (0 + i)
    wr d (0 + i) x : Out (List R))) (s := mo.data) (fun d => d ++ extra) (fun d => d.length = mo.data.length) rfl (by
      intro i hi t ht
      rw [rd_lt (by omega), ok_bind, ok_bind, wr_append _ (by omega), wr_lt _ (by omega)]
      exact ⟨rfl, Out.post_ok (by simp [ht])⟩)
  unfold memcpyAt
  rw [l1]
  cases hcp : forN (m.rows * m.cols) (fun i d => (do
    let x ← rd m.data (0 + i)
    wr d (0 + i) x : Out (List R))) mo.data with
  | ub => exact ⟨rfl, by rintro _ ⟨⟩⟩
  | ok d =>
    have hd := l2 d hcp
    simp only [ok_bind, pure_eq]
    rw [if_neg (by simp), if_neg (by simp)]
    obtain ⟨b1, b2⟩ := balanceLoop_lift m.rows extra mo.data.length (by rw [h1.1] at hc ⊢; exact hc) fuel (junk 0) (junk 1) d hd
    rw [b1]
    cases hbl : balanceLoop fuel m.rows (junk 0) (junk 1) d with
    | ub => exact ⟨rfl, by rintro _ ⟨⟩⟩
    | ok d' => exact ⟨rfl, Out.post_ok ⟨rfl, rfl, b2 d' hbl⟩⟩

theorem eigScan_safe (mo : Mtx R) (h : mo.WF) (last : ℕ) : ∀ (fuel g : ℕ) (sd dg : R) (vd : List R) (real : ℕ), last ≤ g + fuel →
    real ≤ g → real ≤ last → last ≤ vd.length →
    (eigScan fuel mo last g sd dg vd real).sat fun p => p.2.2.1.length = vd.length ∧ p.2.2.2 ≤ last := by
  intro fuel
  induction fuel with
  | zero =>
    intro g sd dg vd real h1 h2 h3 h4
    unfold eigScan
    rw [if_neg (by omega)]
    exact satp ⟨rfl, h3⟩
  | succ fuel ih =>
    intro g sd dg vd real h1 h2 h3 h4
    unfold eigScan
    refine ite_sat (fun hg => ?_) fun _ => satp ⟨rfl, h3⟩
    refine (mtx_get_safe mo (g + 1) g sd h).bind ?_
    rintro ⟨_, sd⟩ _
    dsimp only
    refine ite_sat (fun _ => ih _ _ _ _ _ (by omega) (by omega) h3 h4) fun _ => ?_
    refine (mtx_get_safe mo g g dg h).bind ?_
    rintro ⟨_, dg⟩ _
    dsimp only
    rw [wr_lt _ (by omega), ok_bind]
    refine (ih (g + 1) sd dg (vd.set real dg) (real + 1) (by omega) (by omega) (by omega) (by simpa using h4)).mono ?_
    rintro p ⟨p1, p2⟩
    exact ⟨by simpa using p1, p2⟩

/-- C117. `zsl_mtx_eigenvalues` of a matrix of any shape, for every iteration count: once the balancing step has returned, the rest
stays within the buffers. The output buffer must have a cell for every row. -/
theorem mtx_eigenvalues_safe (fuel : ℕ) (junk : ℕ → R) (m : Mtx R) (v : Vec R) (iter : ℕ) (h : m.WF) (hv : v.WF)
    (hvd : m.rows ≤ v.data.length) (h0 : 0 < m.rows) (hsz : m.rows < SIZE_MOD) (b : Int × Mtx R)
    (hb : mtxBalance fuel junk m (Mtx.uninit junk m.rows m.rows) = ok b) :
    (mtxEigenvalues fuel junk m v iter).sat fun p =>
      p.2.data.length = v.data.length ∧ (p.2.sz = v.sz ∨ p.2.sz ≤ m.rows) := by
  unfold mtxEigenvalues
  rw [if_neg (by omega), hb, ok_bind]
  obtain ⟨rc, mt⟩ := b
  have hu : (Mtx.uninit junk m.rows m.rows).rows = m.rows ∧ (Mtx.uninit junk m.rows m.rows).cols = m.rows ∧
    (Mtx.uninit junk m.rows m.rows).WF := ⟨rfl, rfl, Mtx.wf_uninit _ _ _⟩
  have lb := (mtx_balance_safe fuel junk m (Mtx.uninit junk m.rows m.rows) [] h hu.2.2).2 _ hb
  have c1 := lb.sq hu
  dsimp only at c1 ⊢
  refine (mtx_qrd_safe junk mt _ _ true c1.2.2 hu.2.2 hu.2.2 (c1.1.trans c1.2.1.symm) (by omega) (by rw [c1.1]; rfl)
    (by rw [c1.1]; rfl) (by omega)).bind ?_
  rintro ⟨_, mo, mt2⟩ ⟨l1, l2⟩
  dsimp only at l1 l2 ⊢
  have c2 := l1.sq hu
  have c3 := l2.sq hu
  refine (mtx_qrd_iter_safe junk mt2 mo iter c3.2.2 c2.2.2 (c3.1.trans c3.2.1.symm) (by omega) (by omega)).bind ?_
  rintro ⟨_, mo'⟩ l3
  dsimp only at l3 ⊢
  have c4 := l3.sq c2
  refine (vec_init_safe v hv).bind ?_
  rintro ⟨_, v'⟩ lv
  dsimp only at lv ⊢
  refine (mtx_tests_safe m (junk 0) h).2.bind ?_
  intro sym _
  refine ite_sat (fun _ => ?_) fun _ => ?_
  · refine Out.sat.bind (P := fun s : R × List R => s.2.length = v.data.length) ?_ ?_
    · refine forN_inv _ lv.2 ?_
      rintro g hg ⟨dg, vd⟩ hvd'
      dsimp only at hvd' ⊢
      refine (mtx_get_safe mo' g g dg c4.2.2).bind ?_
      rintro ⟨_, dg⟩ _
      dsimp only
      rw [wr_lt _ (by omega), ok_bind]
      exact satp (by simpa using hvd')
    · rintro ⟨_, vd⟩ hvd'
      exact satp ⟨hvd', Or.inl lv.1⟩
  · rw [szSub_le (by omega)]
    refine (eigScan_safe mo' c4.2.2 (m.rows - 1) m.rows 0 (junk 0) (junk 0) v'.data 0 (by omega) le_rfl (by omega)
      (by rw [lv.2]; omega)).bind ?_
    rintro ⟨sd, dg, vd, real⟩ ⟨p1, p2⟩
    dsimp only at p1 p2 ⊢
    refine (mtx_get_safe mo' (m.rows - 1) _ sd c4.2.2).bind ?_
    rintro ⟨_, sd⟩ _
    dsimp only
    refine Out.sat.bind (P := fun p : List R × ℕ => p.1.length = v.data.length ∧ p.2 ≤ m.rows) ?_ ?_
    · refine ite_sat (fun _ => satp ⟨p1.trans lv.2, by dsimp only; omega⟩) fun _ => ?_
      refine (mtx_get_safe mo' _ _ dg c4.2.2).bind ?_
      rintro ⟨_, dg⟩ _
      dsimp only
      rw [wr_lt _ (by rw [p1, lv.2]; omega), ok_bind]
      exact satp ⟨by rw [List.length_set, p1, lv.2], by dsimp only; omega⟩
    · rintro ⟨vd, real⟩ ⟨p1, p2⟩
      dsimp only at p1 p2 ⊢
      refine ite_sat (fun _ => satp ⟨p1, Or.inr p2⟩) fun _ => ?_
      refine (vec_zte_safe ⟨real, vd⟩ (by unfold Vec.WF; dsimp only; omega)).bind ?_
      rintro ⟨_, v2⟩ l
      exact satp ⟨l.2.trans p1, Or.inr (by rw [l.1]; exact p2)⟩

end Verif
