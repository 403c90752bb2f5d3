import Verif.Props.Alias6
import Verif.Props.Decomp3
import Verif.Props.Matrices3

/-!
# Calls whose arguments share storage: augmentation, QR with one object for both factors (C145)
-/

set_option linter.unusedSectionVars false

namespace Verif

open Out

variable {R : Type} [CReal R] {n : ℕ}

/-- C145, C21. `zsl_mtx_augm_diag(m, maug)` with separate objects. -/
theorem mtx_augm_diag_separate (x0 : R) (mem : MMem R) (m maug : ℕ) (h : m ≠ maug) :
    mtxAugmDiagMem x0 mem m maug = (mtxAugmDiag x0 (mem m) (mem maug) >>= fun p => ok (p.1, Function.update mem maug p.2)) := by
  unfold mtxAugmDiagMem mtxAugmDiag
  dsimp only [onObj]
  cases mtxInit (mem maug) (some entryFnIdentity) with
  | ub => rfl
  | ok a =>
    simp only [ok_bind, pure_eq]
    have := (forN_sim (n := (mem m).rows) (f := fun i s =>
        forN (mem m).rows (fun j (s : R × Mtx R) => do
          let (x, y) := s
          let (_, x) ← mtxGet (mem m) i j x
          let (_, y) ← mtxSet y (szAdd i (szSub (mem maug).rows (mem m).rows)) (szAdd j (szSub (mem maug).rows (mem m).rows)) x
          return (x, y)) s) (g := fun i s =>
        forN (mem m).rows (fun j (s : R × MMem R) => do
          let (x, mem') := s
          let (_, x) ← mtxGet (mem' m) i j x
          let (_, mem') ← onObj mem' maug (fun y => mtxSet y (szAdd i (szSub (mem maug).rows (mem m).rows)) (szAdd j (szSub (mem maug).rows (mem m).rows)) x)
          return (x, mem')) s) (fun s => (s.1, Function.update mem maug s.2)) (fun _ _ => True)
        (t := (x0, a.2)) trivial ?_).1
    · dsimp only [onObj] at this
      simp only [bind_assoc', ok_bind, pure_eq] at this ⊢
      rw [this]
      simp only [bind_assoc', ok_bind]
    · intro i _ s _
      refine ⟨?_, fun _ _ => trivial⟩
      refine (forN_sim (fun s : R × Mtx R => (s.1, Function.update mem maug s.2)) (fun _ _ => True) trivial ?_).1
      rintro j _ ⟨x, y⟩ -
      refine ⟨?_, fun _ _ => trivial⟩
      simp only [Function.update_of_ne h, onObj, Function.update_self, Function.update_idem, bind_assoc', ok_bind, pure_eq]

/-- C145. `zsl_mtx_augm_diag(m, m)`, the matrix as its own extension: whatever it held, it becomes the identity. -/
theorem mtx_augm_diag_in_place (x0 : R) (mem : MMem R) (m : ℕ) (A : Matrix (Fin n) (Fin n) R) (t : List R) (hm : mem m = mtxOf A t)
    (hsz : n < SIZE_MOD) :
    mtxAugmDiagMem x0 mem m m = ok (0, Function.update mem m (mtxOf (Matrix.of fun (i j : Fin n) => if i = j then lit 1 else lit 0) t)) := by
  unfold mtxAugmDiagMem
  dsimp only [onObj]
  have hI : (Matrix.of fun (i j : Fin n) => if i.val = j.val then (lit 1 : R) else lit 0) =
      Matrix.of fun (i j : Fin n) => if i = j then lit 1 else lit 0 := by
    ext i j
    simp [Fin.ext_iff]
  rw [hm, mtx_init_identity, hI]
  simp only [ok_bind, pure_eq, mtxOf_rows, szSub_le (le_refl n), Nat.sub_self]
  set M : Matrix (Fin n) (Fin n) R := Matrix.of fun (i j : Fin n) => if i = j then lit 1 else lit 0 with hM
  have hl : (forN n (fun i (s : R × MMem R) =>
      forN n (fun j (s : R × MMem R) =>
        mtxGet (s.2 m) i j s.1 >>= fun g => (mtxSet (s.2 m) (szAdd i 0) (szAdd j 0) g.2 >>= fun y => ok (y.1, Function.update s.2 m y.2)) >>= fun y => ok (g.2, y.2)) s)
      (x0, Function.update mem m (mtxOf M t))).sat (fun s => s.2 = Function.update mem m (mtxOf M t)) := by
    refine forN_sat (fun _ (s : R × MMem R) => s.2 = Function.update mem m (mtxOf M t)) rfl ?_
    intro i hi s hs
    refine forN_sat (fun _ (s : R × MMem R) => s.2 = Function.update mem m (mtxOf M t)) hs ?_
    rintro j hj ⟨x, y⟩ hy
    dsimp only at hy ⊢
    rw [hy, Function.update_self, szAdd_lt (by omega), szAdd_lt (by omega), Nat.add_zero, Nat.add_zero]
    have e1 := mtx_get_correct M t x ⟨i, hi⟩ ⟨j, hj⟩
    have e2 := mtx_set_correct M t (M ⟨i, hi⟩ ⟨j, hj⟩) ⟨i, hi⟩ ⟨j, hj⟩
    dsimp only at e1 e2
    rw [e1]
    simp only [ok_bind]
    rw [e2]
    simp only [ok_bind, sat_ok, Function.update_idem]
    have e3 : (Matrix.of fun a b => if a = (⟨i, hi⟩ : Fin n) ∧ b = (⟨j, hj⟩ : Fin n) then M ⟨i, hi⟩ ⟨j, hj⟩ else M a b) = M := by
      ext a b
      rw [Matrix.of_apply]
      split_ifs with h1
      · rw [h1.1, h1.2]
      · rfl
    rw [e3]
  obtain ⟨s, hs, h2⟩ := hl
  simp only [hs, ok_bind]
  rw [h2]

/-- C145, C29. `zsl_mtx_qrd(m, p, p, false)`, one object for both factors (which may also be the matrix itself): the orthogonal factor is
stored, and the triangular one is lost. -/
theorem mtx_qrd_one_object (junk : ℕ → XR) (mem : MMem XR) (m p : ℕ) (A : Matrix (Fin n) (Fin n) ℝ) (C : Matrix (Fin n) (Fin n) XR) (t u : List XR)
    (hm : mem m = mat A t) (hp : mem p = mtxOf C u) (hn : 0 < n) (hsz : n < SIZE_MOD) :
    ∃ Q : Matrix (Fin n) (Fin n) ℝ, mtxQrdMem junk mem m p p false = ok (0, Function.update mem p (mat Q u)) ∧
      Q * Q.transpose = 1 ∧ Q.transpose * Q = 1 ∧ ∃ R : Matrix (Fin n) (Fin n) ℝ, (∀ i j, j < i → R i j = 0) ∧ Q * R = A := by
  obtain ⟨Q, T, h1, -⟩ := mtx_qrd_correct junk A C C t u u hn hsz
  obtain ⟨Q', T', h2, o1, o2, tr, pr⟩ := mtx_qrd_correct junk A (T.map XR.fin) C t u u hn hsz
  refine ⟨Q', ?_, o1, o2, T', tr, pr⟩
  rw [← hm, ← hp] at h1
  rw [← hm, ← hp] at h2
  unfold mtxQrd at h1 h2
  unfold mtxQrdMem
  by_cases h : (mem m).rows = 0 ∨ (mem m).cols = 0
  · rw [if_pos h] at h1
    cases h1
  rw [if_neg h] at h1 h2 ⊢
  cases hA : mtxInit (Mtx.uninit junk (mem m).rows (mem m).rows) none with
  | ub => rw [hA] at h1; cases h1
  | ok a =>
    rw [hA] at h1 h2
    simp only [ok_bind] at h1 h2 ⊢
    cases hB : mtxInit (Mtx.uninit junk (mem m).rows (mem m).rows) (some entryFnIdentity) with
    | ub => rw [hB] at h1; cases h1
    | ok b =>
      rw [hB] at h1 h2
      simp only [ok_bind] at h1 h2 ⊢
      rw [mtx_copy_aliasing]
      cases hc : mtxCopy (mem p) (mem m) with
      | ub => rw [hc] at h1; cases h1
      | ok c =>
        rw [hc] at h1 h2
        simp only [ok_bind] at h1 h2 ⊢
        have hs : (Function.update mem p c.2 m).rows = (mem m).rows ∧ (Function.update mem p c.2 m).cols = (mem m).cols := by
          by_cases hmr : m = p
          · subst hmr
            rw [Function.update_self]
            exact NoChkL.shp_copy (r := (mem m).rows) (c := (mem m).cols) ⟨rfl, rfl⟩ hc
          · rw [Function.update_of_ne hmr]
            exact ⟨rfl, rfl⟩
        rw [hs.1, hs.2, Function.update_self]
        cases hl : forN (szSub (mem m).rows 1) (fun g s => qrdStep junk (mem m).rows (mem m).cols false g s)
            (Mtx.uninit junk (mem m).rows (mem m).cols, Mtx.uninit junk (mem m).rows (mem m).cols, a.2,
              Mtx.uninit junk (mem m).rows (mem m).rows, b.2, c.2) with
        | ub => rw [hl] at h1; cases h1
        | ok d =>
          obtain ⟨_, _, _, _, qt, x⟩ := d
          rw [hl] at h1 h2
          simp only [ok_bind] at h1 h2 ⊢
          have hx : x = mat T u := by
            cases hq : mtxTrans junk qt (mem p) with
            | ub => rw [hq] at h1; cases h1
            | ok y =>
              rw [hq] at h1
              simp only [ok_bind, pure_eq, Out.ok.injEq, Prod.mk.injEq] at h1
              exact h1.2.2
          simp only [onObj, Function.update_self, Function.update_idem]
          rw [hx]
          change _ = mat T u at hx
          cases hq : mtxTrans junk qt (mtxOf (T.map XR.fin) u) with
          | ub => rw [hq] at h2; cases h2
          | ok y =>
            rw [hq] at h2
            simp only [ok_bind, pure_eq, Out.ok.injEq, Prod.mk.injEq] at h2
            change (mtxTrans junk qt (mtxOf (T.map XR.fin) u) >>= _) >>= _ = _
            rw [hq]
            simp only [ok_bind, pure_eq, h2.2.1]

/-- Non-vacuity: the decomposition of a 2x2 matrix over itself. -/
example (junk : ℕ → XR) (mem : MMem XR) (h : mem 0 = mat !![1, 2; 3, 4] []) :
    ∃ Q : Matrix (Fin 2) (Fin 2) ℝ, mtxQrdMem junk mem 0 0 0 false = ok (0, Function.update mem 0 (mat Q [])) ∧ Q * Q.transpose = 1 := by
  obtain ⟨Q, h1, h2, -⟩ := mtx_qrd_one_object junk mem 0 0 !![1, 2; 3, 4] _ [] [] h h (by norm_num) (by norm_num [SIZE_MOD])
  exact ⟨Q, h1, h2⟩

end Verif
