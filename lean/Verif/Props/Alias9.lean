import Verif.Model.AliasRed
import Verif.Props.Alias6
import Verif.Props.Matrices3

/-!
# Calls whose arguments share storage: iterated reduction (C145)
-/

set_option linter.unusedSectionVars false

namespace Verif

open Out

variable {R : Type} [CReal R] {n : ℕ}

theorem mtxCopy_size {a b : Mtx R} {x : Int × Mtx R} (h : mtxCopy a b = ok x) : x.2.rows = a.rows ∧ x.2.cols = a.cols := by
  unfold mtxCopy at h
  split at h
  · cases h
    exact ⟨rfl, rfl⟩
  · cases hm : memcpyAt a.data 0 b.data 0 (b.rows * b.cols) with
    | ub => simp [hm] at h
    | ok d =>
      simp only [hm, ok_bind, pure_eq, Out.ok.injEq] at h
      rw [← h]
      exact ⟨rfl, rfl⟩

/-- C145, C21. `zsl_mtx_reduce_iter(m, mred, place1, place2)` with four different matrices. -/
theorem mtx_reduce_iter_separate (junk : ℕ → R) (x0 : R) (mem : MMem R) (m mred p1 p2 : ℕ) (h1 : m ≠ mred) (h2 : m ≠ p1) (h3 : m ≠ p2) (h4 : mred ≠ p1) (h5 : mred ≠ p2) (h6 : p1 ≠ p2) :
    mtxReduceIterMem junk x0 mem m mred p1 p2 = (mtxReduceIter junk x0 (mem m) ⟨mem mred, mem p1, mem p2⟩ >>= fun r =>
      ok (r.1, Function.update (Function.update (Function.update mem mred r.2.mred) p1 r.2.place1) p2 r.2.place2)) := by
  -- from the first placeholder on
  have key : ∀ mem' : MMem R, (∀ k, k ≠ p1 → mem' k = mem k) →
      (do
        let mem := mem'
        if (mem p1).rows = (mem mred).rows then do
          let (_, mem) ← mtxCopyMem mem mred p1
          let mem := mem.setSize p1 (mem m).rows (mem m).cols
          let mem := mem.setSize p2 (mem m).rows (mem m).cols
          return (0, mem)
        else do
          let mem := mem.setSize p2 (szSub (mem p1).rows 1) (szSub (mem p1).cols 1)
          let (_, mem) ← mtxReduceMem junk x0 mem p1 p2 0 0
          let mem := mem.setSize p1 (szSub (mem p1).rows 1) (szSub (mem p1).cols 1)
          let (_, mem) ← mtxCopyMem mem p1 p2
          return (-EAGAIN, mem) : Out (Int × MMem R)) =
      ((do
        let place1 := mem' p1
        if place1.rows = (mem mred).rows then do
          let (_, mred) ← mtxCopy (mem mred) place1
          return (0, ⟨mred, { place1 with rows := (mem m).rows, cols := (mem m).cols }, { mem p2 with rows := (mem m).rows, cols := (mem m).cols }⟩)
        else do
          let place2 : Mtx R := { mem p2 with rows := szSub place1.rows 1, cols := szSub place1.cols 1 }
          let (_, place2) ← mtxReduce junk x0 place1 place2 0 0
          let place1 : Mtx R := { place1 with rows := szSub place1.rows 1, cols := szSub place1.cols 1 }
          let (_, place1) ← mtxCopy place1 place2
          return (-EAGAIN, ⟨mem mred, place1, place2⟩) : Out (Int × ReduceState R)) >>= fun r =>
        ok (r.1, Function.update (Function.update (Function.update mem mred r.2.mred) p1 r.2.place1) p2 r.2.place2)) := by
    intro mem' hm
    dsimp only
    rw [hm mred h4]
    by_cases hr : (mem' p1).rows = (mem mred).rows
    · rw [if_pos hr, if_pos hr, mtx_copy_aliasing, hm mred h4]
      cases mtxCopy (mem mred) (mem' p1) with
      | ub => rfl
      | ok c =>
        simp only [ok_bind, pure_eq, MMem.setSize]
        congr 2
        funext k
        by_cases k2 : k = p2
        · subst k2
          simp [Function.update_of_ne h1, Function.update_of_ne h2, Function.update_of_ne h6.symm, Function.update_of_ne h5.symm, hm _ h2, hm _ h6.symm]
        · by_cases k1 : k = p1
          · subst k1
            simp [Function.update_of_ne h1, Function.update_of_ne h6, Function.update_of_ne h4.symm, hm _ h2]
          · by_cases k3 : k = mred
            · subst k3
              simp [Function.update_of_ne h5, Function.update_of_ne h4]
            · simp [Function.update_of_ne k1, Function.update_of_ne k2, Function.update_of_ne k3, hm _ k1]
    · rw [if_neg hr, if_neg hr, (mtx_reduce_aliasing junk x0 _ p1 p2 0 0).1]
      simp only [MMem.setSize, Function.update_self, Function.update_of_ne h6, hm p2 h6.symm]
      cases mtxReduce junk x0 (mem' p1) { mem p2 with rows := szSub (mem' p1).rows 1, cols := szSub (mem' p1).cols 1 } 0 0 with
      | ub => rfl
      | ok c =>
        simp only [ok_bind, pure_eq, mtx_copy_aliasing, Function.update_self, Function.update_of_ne h6, Function.update_of_ne h6.symm]
        cases mtxCopy { mem' p1 with rows := szSub (mem' p1).rows 1, cols := szSub (mem' p1).cols 1 } c.2 with
        | ub => rfl
        | ok d =>
          simp only [ok_bind]
          congr 2
          funext k
          by_cases k2 : k = p2
          · subst k2
            simp [Function.update_of_ne h6.symm]
          · by_cases k1 : k = p1
            · subst k1
              simp [Function.update_of_ne h6]
            · by_cases k3 : k = mred
              · subst k3
                simp [Function.update_of_ne h5, Function.update_of_ne h4, hm _ h4]
              · simp [Function.update_of_ne k1, Function.update_of_ne k2, Function.update_of_ne k3, hm _ k1]
  unfold mtxReduceIterMem mtxReduceIter
  dsimp only at key ⊢
  by_cases h0 : (mem m).rows = (mem p1).rows
  · rw [if_pos h0, if_pos h0, mtx_copy_aliasing]
    cases mtxCopy (mem p1) (mem m) with
    | ub => rfl
    | ok c =>
      have := key (Function.update mem p1 c.2) fun k hk => Function.update_of_ne hk _ _
      simp only [ok_bind, pure_eq, Function.update_self] at this ⊢
      exact this
  · rw [if_neg h0, if_neg h0]
    have := key mem fun k _ => rfl
    simp only [ok_bind, pure_eq] at this ⊢
    exact this

/-- C145. One matrix for both placeholders: the first call copies the `n × n` matrix `A` to it, cuts its size down twice, and returns `-EAGAIN`; no row or column
was removed, and the block of size `n - 1` is never formed. -/
theorem mtx_reduce_iter_one_placeholder (junk : ℕ → R) (x0 : R) (mem : MMem R) (m mred p : ℕ) (h2 : m ≠ p) (h4 : mred ≠ p) (A B : Matrix (Fin (n + 2)) (Fin (n + 2)) R) (t u : List R)
    (hA : mem m = mtxOf A t) (hB : mem p = mtxOf B u) (hr : (mem mred).rows ≠ n + 2) :
    mtxReduceIterMem junk x0 mem m mred p p = ok (-EAGAIN, Function.update mem p ⟨n, n, (mtxOf A u).data⟩) := by
  unfold mtxReduceIterMem
  dsimp only
  rw [if_pos (by rw [hA, hB]; rfl), mtx_copy_aliasing, hA, hB, mtx_copy_correct]
  simp only [ok_bind, pure_eq]
  rw [if_neg (by rw [Function.update_self, Function.update_of_ne h4]; exact fun h => hr h.symm)]
  have hs : (MMem.setSize (Function.update mem p (mtxOf A u)) p (szSub (Function.update mem p (mtxOf A u) p).rows 1) (szSub (Function.update mem p (mtxOf A u) p).cols 1)) =
      Function.update mem p ⟨n + 1, n + 1, (mtxOf A u).data⟩ := by
    simp only [MMem.setSize, Function.update_self, Function.update_idem, mtxOf_rows, mtxOf_cols]
    rw [szSub_le (by omega)]
    rfl
  rw [hs, (mtx_reduce_aliasing junk x0 _ p p 0 0).2 (by simp)]
  simp only [ok_bind, MMem.setSize, Function.update_self, Function.update_idem]
  rw [szSub_le (by omega), Nat.add_sub_cancel, mtxCopyMem_self _ _ (by
    have := mtxOf_wf A u
    unfold Mtx.WF at this ⊢
    simp only [mtxOf_rows, mtxOf_cols, Function.update_self] at this ⊢
    nlinarith)]
  rfl

/-- C145. The matrix itself as the first placeholder: a call that does not finish cuts down the input, which the caller handed in only to be read. -/
theorem mtx_reduce_iter_destroys (junk : ℕ → R) (x0 : R) (mem mem' : MMem R) (m mred p2 : ℕ) (h6 : m ≠ p2) (rc : Int) (hr : (mem mred).rows ≠ (mem m).rows) (h1 : 0 < (mem m).rows)
    (h : mtxReduceIterMem junk x0 mem m mred m p2 = ok (rc, mem')) : rc = -EAGAIN ∧ (mem' m).rows = (mem m).rows - 1 := by
  have hne : mred ≠ m := fun e => hr (by rw [e])
  unfold mtxReduceIterMem at h
  dsimp only at h
  rw [if_pos rfl, mtx_copy_aliasing] at h
  cases hc : mtxCopy (mem m) (mem m) with
  | ub => simp [hc] at h
  | ok c =>
    have hs := mtxCopy_size hc
    rw [hc] at h
    simp only [ok_bind, pure_eq] at h
    rw [if_neg (by rw [Function.update_self, Function.update_of_ne hne, hs.1]; exact fun e => hr e.symm), (mtx_reduce_aliasing junk x0 _ m p2 0 0).1] at h
    simp only [MMem.setSize, Function.update_self, Function.update_of_ne h6] at h
    cases hd : mtxReduce junk x0 c.2 { (Function.update mem m c.2) p2 with rows := szSub c.2.rows 1, cols := szSub c.2.cols 1 } 0 0 with
    | ub => simp [hd] at h
    | ok d =>
      rw [hd] at h
      simp only [ok_bind, mtx_copy_aliasing, Function.update_self, Function.update_of_ne h6, Function.update_of_ne h6.symm] at h
      cases he : mtxCopy { c.2 with rows := szSub c.2.rows 1, cols := szSub c.2.cols 1 } d.2 with
      | ub => simp [he] at h
      | ok e =>
        rw [he] at h
        simp only [ok_bind, Out.ok.injEq, Prod.mk.injEq] at h
        refine ⟨h.1.symm, ?_⟩
        rw [← h.2, Function.update_self, (mtxCopy_size he).1, hs.1, szSub_le (by omega)]

/-- C145. A case that meets the hypotheses: a 3x3 matrix to be reduced to 2x2 with one placeholder ends with an upper left corner of the matrix in it, of size 1. -/
example (junk : ℕ → XR) (A : Matrix (Fin 3) (Fin 3) ℝ) :
    ∃ mem mem' : MMem XR, mem 0 = mat A [] ∧ mtxReduceIterMem junk (junk 0) mem 0 1 2 2 = ok (-EAGAIN, mem') ∧ (mem' 2).rows = 1 ∧ (mem' 2).data = (mat A []).data := by
  let mem : MMem XR := fun k => if k = 1 then mat (0 : Matrix (Fin 2) (Fin 2) ℝ) [] else mat A []
  exact ⟨mem, _, rfl, mtx_reduce_iter_one_placeholder (n := 1) junk (junk 0) mem 0 1 2 (by decide) (by decide) (A.map XR.fin) (A.map XR.fin) [] [] rfl rfl (by simp [mem]), by simp, by
    simp only [Function.update_self]
    rfl⟩

end Verif
