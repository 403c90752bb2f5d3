import Verif.Props.Augm3
import Verif.Props.Safe4f

/-!
# QR decomposition into an upper triangular factor that is too small (C117)
-/

set_option linter.unusedSectionVars false

namespace Verif

open Out

variable {R : Type} [CReal R] {n k : ℕ}

/-- If `k` calls are undefined and shorter sequences of calls ask to be called again, so is the loop that calls until 0 is returned. -/
theorem reduceLoop_ub (junk : ℕ → R) (x0 : R) (m : Mtx R) : ∀ (fuel k : ℕ) (s : ReduceState R), 0 < k →
    (∀ j < k, ∃ s' : ReduceState R, reduceCalls junk x0 m j s = ok (List.replicate j (-EAGAIN), s')) → reduceCalls junk x0 m k s = ub →
    mtxReduceLoop fuel junk x0 m s = ub := by
  intro fuel
  induction fuel with
  | zero => intros; rfl
  | succ fuel ih =>
    intro k s hk hj hu
    rw [mtxReduceLoop]
    cases hit : mtxReduceIter junk x0 m s with
    | ub => rfl
    | ok p =>
      obtain ⟨rc, s1⟩ := p
      rw [ok_bind]
      dsimp only
      have hstep : ∀ j, reduceCalls junk x0 m (j + 1) s = (do
          let (l, s) ← reduceCalls junk x0 m j s1
          return (rc :: l, s)) := fun j => by
        rw [reduceCalls, hit]
        rfl
      obtain ⟨k, rfl⟩ := Nat.exists_eq_succ_of_ne_zero hk.ne'
      rcases Nat.eq_zero_or_pos k with rfl | hk'
      · rw [hstep 0] at hu
        cases hu
      · have hrc : rc = -EAGAIN := by
          obtain ⟨s', h1⟩ := hj 1 (by omega)
          rw [hstep 0] at h1
          simp only [reduceCalls, ok_bind, pure_eq, Out.ok.injEq, Prod.mk.injEq, List.replicate_one, List.cons.injEq] at h1
          exact h1.1.1
        rw [hrc, if_pos (by simp [EAGAIN])]
        refine ih k s1 hk' (fun j hjk => ?_) ?_
        · obtain ⟨s', h1⟩ := hj (j + 1) (by omega)
          rw [hstep j] at h1
          cases hc : reduceCalls junk x0 m j s1 with
          | ub => rw [hc] at h1; cases h1
          | ok p =>
            obtain ⟨l, s2⟩ := p
            rw [hc] at h1
            simp only [ok_bind, pure_eq, Out.ok.injEq, Prod.mk.injEq, List.replicate_succ, List.cons.injEq] at h1
            exact ⟨s2, by rw [h1.1.2]⟩
        · rw [Nat.succ_eq_add_one, hstep k] at hu
          cases hc : reduceCalls junk x0 m k s1 with
          | ub => rfl
          | ok p => rw [hc] at hu; cases hu

/-- C117. `zsl_mtx_qrd` does not check the shape of its outputs. If the matrix for the triangular factor is square but smaller than the input, the first
reduction never reaches its size and the call is undefined, whatever the matrices contain. -/
theorem mtx_qrd_small_r (junk : ℕ → R) (m q r : Mtx R) (hess : Bool) (h : m.WF) (hr : r.WF) (hsq : m.rows = m.cols) (hrs : r.rows = r.cols)
    (h0 : 0 < r.rows) (hlt : r.rows < m.rows) : mtxQrd junk m q r hess = ub := by
  unfold mtxQrd
  rw [if_neg (by omega)]
  refine (mtx_init_safe (Mtx.uninit junk m.rows m.rows) (Mtx.wf_uninit _ _ _)).1.bind_ub ?_
  rintro ⟨_, hh⟩ l1
  refine (mtx_init_safe (Mtx.uninit junk m.rows m.rows) (Mtx.wf_uninit _ _ _)).2.2.1.bind_ub ?_
  rintro ⟨_, qt⟩ l2
  refine (mtx_copy_safe r m hr h).bind_ub ?_
  rintro ⟨_, r'⟩ l3
  dsimp only at l1 l2 l3 ⊢
  have hr' := l3.wf hr
  rw [forN_start_ub]
  · rfl
  · rw [szSub_le (by omega)]
    omega
  · unfold qrdStep
    dsimp only
    have hloop : mtxReduceLoop (r'.rows + 1) junk (junk 0) r' ⟨Mtx.uninit junk (szSub m.rows 0) (szSub m.cols 0), Mtx.uninit junk r'.rows r'.cols,
        Mtx.uninit junk r'.rows r'.cols⟩ = ub := by
      obtain ⟨f, hf⟩ := mkM_of_wf r' hr'
      have e1 : r'.cols = r'.rows := by rw [l3.1, l3.2.1, hrs]
      have e2 : 0 < r'.rows := by rw [l3.1]; exact h0
      have e3 : r'.rows < szSub m.rows 0 := by rw [l3.1, szSub_le (by omega)]; omega
      rw [e1]
      rw [e1] at hf
      generalize r'.rows = k at *
      rw [hf]
      have hw := Mtx.wf_uninit junk k k
      obtain ⟨hj, hu⟩ := reduceCalls_never junk (junk 0) f (r'.data.drop (k * k)) (Mtx.uninit junk (szSub m.rows 0) (szSub m.cols 0)) (n := k) (Or.inr e3) k
        (Mtx.uninit junk k k).data (Mtx.uninit junk k k).data k k e2 le_rfl hw hw (fun h => absurd h (lt_irrefl _))
      exact reduceLoop_ub junk (junk 0) _ (k + 1) k _ e2 (fun j hjk => (hj j hjk).imp fun s' h => h.2) hu
    rw [hloop]
    rfl

/-- The hypotheses are met: a 2x2 matrix and a 1x1 triangular factor. -/
example (junk : ℕ → R) (a b c d x : R) (q : Mtx R) : mtxQrd junk ⟨2, 2, [a, b, c, d]⟩ q ⟨1, 1, [x]⟩ false = ub :=
  mtx_qrd_small_r junk _ q _ false (by simp [Mtx.WF]) (by simp [Mtx.WF]) rfl rfl (by norm_num) (by norm_num)

/-- C117. If the matrix for the orthogonal factor has the wrong shape, `zsl_mtx_qrd` of a square matrix returns 0 and leaves it as it was. -/
theorem mtx_qrd_wrong_q (junk : ℕ → R) (m q r : Mtx R) (hess : Bool) (h : m.WF) (hr : r.WF) (hsq : m.rows = m.cols) (h0 : 0 < m.rows)
    (hrr : r.rows = m.rows) (hrc : r.cols = m.rows) (hsz : m.rows < SIZE_MOD) (hq : q.rows ≠ m.rows ∨ q.cols ≠ m.rows) :
    (mtxQrd junk m q r hess).sat fun p => p.1 = 0 ∧ p.2.1 = q := by
  unfold mtxQrd
  rw [if_neg (by omega), ← hsq]
  refine (mtx_init_safe (Mtx.uninit junk m.rows m.rows) (Mtx.wf_uninit _ _ _)).1.bind ?_
  rintro ⟨_, hh⟩ l1
  refine (mtx_init_safe (Mtx.uninit junk m.rows m.rows) (Mtx.wf_uninit _ _ _)).2.2.1.bind ?_
  rintro ⟨_, qt⟩ l2
  refine (mtx_copy_safe r m hr h).bind ?_
  rintro ⟨_, r'⟩ l3
  dsimp only at l1 l2 l3 ⊢
  have hu : (Mtx.uninit junk m.rows m.rows).rows = m.rows ∧ (Mtx.uninit junk m.rows m.rows).cols = m.rows ∧
    (Mtx.uninit junk m.rows m.rows).WF := ⟨rfl, rfl, Mtx.wf_uninit _ _ _⟩
  refine Out.sat.bind (P := fun s => QrdShape m.rows s ∧ r.Like s.2.2.2.2.2) ?_ ?_
  · refine forN_inv _ ⟨⟨hu, hu, l1.sq hu, hu, l2.sq hu, l3.sq ⟨hrr, hrc, hr⟩⟩, l3⟩ fun g hg s hs => ?_
    rw [szSub_le (by omega)] at hg
    exact (qrdStep_safe junk m.rows g hess s hs.1 (by omega) hsz).mono fun s' h' => ⟨h'.1, hs.2.trans h'.2⟩
  · rintro ⟨_, _, _, _, qt, r2⟩ ⟨hs, l4⟩
    have c5 : qt.rows = m.rows ∧ qt.cols = m.rows ∧ qt.WF := hs.2.2.2.2.1
    dsimp only at l4 ⊢
    have e : mtxTrans junk qt q = ok (-EINVAL, q) := if_pos (by rw [c5.1, c5.2.1]; omega)
    rw [e, ok_bind]
    exact satp ⟨rfl, rfl⟩

/-- The hypotheses are met: a 2x2 matrix and a 2x1 orthogonal factor. -/
example (junk : ℕ → R) (a b c d x y : R) : (mtxQrd junk ⟨2, 2, [a, b, c, d]⟩ ⟨2, 1, [x, y]⟩ ⟨2, 2, [x, x, x, x]⟩ false).sat
    fun p => p.1 = 0 ∧ p.2.1 = ⟨2, 1, [x, y]⟩ :=
  mtx_qrd_wrong_q junk _ _ _ false (by simp [Mtx.WF]) (by simp [Mtx.WF]) rfl (by norm_num) rfl rfl (by norm_num [SIZE_MOD]) (Or.inr (by norm_num))

end Verif
