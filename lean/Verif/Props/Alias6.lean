import Verif.Model.AliasMat
import Verif.Props.Alias2
import Verif.Props.Alias4
import Verif.Lemmas.NoChk2

/-!
# Calls whose arguments share storage: copies, elimination steps, balancing, minors, cofactors, QR
-/

set_option linter.unusedSectionVars false

namespace Verif

open Out

variable {R : Type} [CReal R] {n : ℕ}

/-! ### Copies -/

/-- C145, C16. `zsl_mtx_copy(mdest, msrc)` for all pointers. -/
theorem mtx_copy_aliasing (mem : MMem R) (p q : ℕ) :
    mtxCopyMem mem p q = (mtxCopy (mem p) (mem q) >>= fun r => ok (r.1, Function.update mem p r.2)) := by
  unfold mtxCopyMem mtxCopy memcpyAt
  by_cases h : (mem p).rows ≠ (mem q).rows ∨ (mem p).cols ≠ (mem q).cols
  · rw [if_pos h, if_pos h]
    simp
  rw [if_neg h, if_neg h]
  have := (forN_sim (n := (mem q).rows * (mem q).cols) (f := fun i d => do
      let x ← rd (mem q).data (0 + i)
      wr d (0 + i) x) (g := fun i (mem : MMem R) => do
      let x ← rd (mem q).data i
      let d ← wr (mem p).data i x
      return mem.setData p d) (fun d => mem.setData p d) (fun i d => SameFrom (mem p).data i d) (t := (mem p).data) (fun j _ => rfl) ?_).1
  · rw [MMem.setData_self] at this
    rw [this]
    simp only [bind_assoc', ok_bind, pure_eq]
    rfl
  · intro i _ d hd
    simp only [Nat.zero_add]
    constructor
    · simp only [rd_setDataM hd, MMem.setData_at, MMem.setData_setData]
      cases rd (mem q).data i with
      | ub => rfl
      | ok a => rfl
    · intro d' h
      cases hv : rd (mem q).data i with
      | ub => simp [hv] at h
      | ok a =>
        simp only [hv, ok_bind] at h
        exact hd.wr h

/-- Copying a matrix onto itself changes nothing. -/
theorem mtxCopyMem_self (mem : MMem R) (p : ℕ) (hp : (mem p).WF) : mtxCopyMem mem p p = ok (0, mem) := by
  rw [mtx_copy_aliasing]
  obtain ⟨f, hf⟩ := mkM_of_wf _ hp
  have := mkM_copy f f (List.drop ((mem p).rows * (mem p).cols) (mem p).data) (List.drop ((mem p).rows * (mem p).cols) (mem p).data)
    (r := (mem p).rows) (c := (mem p).cols)
  rw [← hf] at this
  rw [this]
  simp

/-! ### Elimination and normalisation -/

/-- Two objects updated one after the other. -/
theorem update_pair {α : Type} (mem : ℕ → α) {p q : ℕ} (h : p ≠ q) (a b a' : α) :
    Function.update (Function.update (Function.update mem p a) q b) p a' = Function.update (Function.update mem p a') q b := by
  funext k
  by_cases h1 : k = p
  · subst h1
    simp [h]
  · by_cases h2 : k = q
    · subst h2
      simp [h1]
    · simp [h1, h2]

theorem gaussElimLoopMem_eq (mem : MMem R) (mg mi : ℕ) (h : mg ≠ mi) (i j : ℕ) (y : R) (rows : ℕ) :
    ∀ (k p : ℕ) (x : R) (a b : Mtx R), rows - p = k → a.rows = rows →
      gaussElimLoopMem rows (Function.update (Function.update mem mg a) mi b) mg mi i j x y p =
        (gaussElimLoop a b i j x y p >>= fun r =>
          ok (r.1, Function.update (Function.update mem mg r.2.1) mi r.2.2)) := by
  intro k
  induction k using Nat.strong_induction_on with
  | _ k ih =>
    intro p x a b hk ha
    rw [gaussElimLoopMem, gaussElimLoop, ha]
    by_cases hp : p < rows
    · rw [if_pos hp, if_pos hp]
      dsimp only
      obtain ⟨p', hp', hge⟩ : ∃ p', p' = (if p = i then p + 1 else p) ∧ p ≤ p' := ⟨_, rfl, by split_ifs <;> omega⟩
      rw [← hp']
      by_cases hend : p' = rows
      · rw [if_pos hend, if_pos hend]
        rfl
      rw [if_neg hend, if_neg hend]
      rw [Function.update_of_ne h, Function.update_self]
      cases mtxGet a p' j x with
      | ub => rfl
      | ok r =>
        simp only [ok_bind]
        by_cases hz : isNonzeroE r.2
        · rw [if_pos hz, if_pos hz]
          unfold onObj
          rw [Function.update_of_ne h, Function.update_self]
          dsimp only
          cases hs : mtxSumRowsScaledD a p' i (-(r.2 / y)) with
          | ub => rfl
          | ok s =>
            simp only [ok_bind, pure_eq]
            rw [update_pair _ h]
            by_cases h1 : s.1 ≠ 0
            · rw [if_pos h1, if_pos h1]
              rfl
            rw [if_neg h1, if_neg h1, Function.update_self]
            cases mtxSumRowsScaledD b p' i (-(r.2 / y)) with
            | ub => rfl
            | ok t =>
              simp only [ok_bind, Function.update_idem]
              by_cases h2 : t.1 ≠ 0
              · rw [if_pos h2, if_pos h2]
                rfl
              rw [if_neg h2, if_neg h2]
              have hshape := NoChkL.shp_sumRowsScaled (r := rows) (c := a.cols) (m := a) ⟨ha, rfl⟩ hs
              have : (⟨rows, s.2.cols, s.2.data⟩ : Mtx R) = s.2 := by rw [← hshape.1]
              rw [this]
              exact ih (rows - (p' + 1)) (by omega) (p' + 1) r.2 s.2 t.2 rfl hshape.1
        · rw [if_neg hz, if_neg hz]
          exact ih (rows - (p' + 1)) (by omega) (p' + 1) r.2 a b rfl ha
    · rw [if_neg hp, if_neg hp]
      rfl

/-- C145, C25. `zsl_mtx_gauss_elim(m, mg, mi, i, j)` for all pointers with `mg` and `mi` different: `m` may be `mg` or `mi`. The call does
what it does on three separate objects with the contents at the call, and nothing but `mg` and `mi` changes. -/
theorem mtx_gauss_elim_aliasing (x0 : R) (mem : MMem R) (m mg mi i j : ℕ) (h : mg ≠ mi) :
    mtxGaussElimMem x0 mem m mg mi i j = (mtxGaussElim x0 (mem m) (mem mg) (mem mi) i j >>= fun r =>
      ok (r.1, Function.update (Function.update mem mg r.2.1) mi r.2.2)) := by
  unfold mtxGaussElimMem mtxGaussElim gaussElimBody
  rw [mtx_copy_aliasing]
  cases hc : mtxCopy (mem mg) (mem m) with
  | ub => rfl
  | ok r =>
    have hmi : ∀ a : Mtx R, Function.update mem mg a = Function.update (Function.update mem mg a) mi (mem mi) := by
      intro a
      conv_lhs => rw [← Function.update_eq_self mi (Function.update mem mg a)]
      rw [Function.update_of_ne (Ne.symm h)]
    simp only [ok_bind]
    by_cases h1 : r.1 ≠ 0
    · rw [if_pos h1, if_pos h1, pure_eq, pure_eq, ok_bind, ← hmi]
    rw [if_neg h1, if_neg h1, Function.update_self]
    cases mtxGet r.2 i j x0 with
    | ub => rfl
    | ok s =>
      simp only [ok_bind]
      by_cases h2 : s.1 ≠ 0
      · rw [if_pos h2, if_pos h2, pure_eq, pure_eq, ok_bind, ← hmi]
      rw [if_neg h2, if_neg h2]
      by_cases h3 : isZeroE s.2
      · rw [if_pos h3, if_pos h3, pure_eq, pure_eq, ok_bind, ← hmi]
      rw [if_neg h3, if_neg h3, hmi]
      exact gaussElimLoopMem_eq mem mg mi h i j s.2 _ _ 0 x0 r.2 (mem mi) rfl rfl

/-- C145, C25. `zsl_mtx_gauss_elim_d(m, mi, i, j)`, which calls `zsl_mtx_gauss_elim(m, m, mi, i, j)`, is modelled faithfully by the
function without the copy. -/
theorem mtx_gauss_elim_d_is (x0 : R) (mem : MMem R) (m mi i j : ℕ) (h : m ≠ mi) (hm : (mem m).WF) :
    mtxGaussElimMem x0 mem m m mi i j = (mtxGaussElimD x0 (mem m) (mem mi) i j >>= fun r =>
      ok (r.1, Function.update (Function.update mem m r.2.1) mi r.2.2)) := by
  rw [mtx_gauss_elim_aliasing x0 mem m m mi i j h]
  unfold mtxGaussElim mtxGaussElimD
  have h1 := mtxCopyMem_self mem m hm
  rw [mtx_copy_aliasing] at h1
  cases hc : mtxCopy (mem m) (mem m) with
  | ub => rw [hc] at h1; cases h1
  | ok r =>
    rw [hc] at h1
    simp only [ok_bind, ok.injEq, Prod.mk.injEq] at h1
    have h2 : r.2 = mem m := by
      have := congrFun h1.2 m
      rwa [Function.update_self] at this
    simp only [ok_bind]
    rw [if_neg (by simp [h1.1]), h2]

/-- Rows of `M` after the rows above `p` have been processed twice. -/
noncomputable def elimTwice (M : Matrix (Fin n) (Fin n) ℝ) (i j : Fin n) (p : ℕ) : Matrix (Fin n) (Fin n) ℝ :=
  Matrix.of fun a b => if a.val < p ∧ a ≠ i ∧ 1 / 1000000 ≤ |M a j| then M a b - 2 * (M a j / M i j) * M i b else M a b

theorem elimTwice_zero (M : Matrix (Fin n) (Fin n) ℝ) (i j : Fin n) : elimTwice M i j 0 = M := by
  ext a b
  simp [elimTwice]

theorem elimTwice_self (M : Matrix (Fin n) (Fin n) ℝ) (i j : Fin n) : elimTwice M i j (i.val + 1) = elimTwice M i j i.val := by
  ext a b
  simp only [elimTwice, Matrix.of_apply]
  refine if_congr ?_ rfl rfl
  constructor
  · rintro ⟨h1, h2, h3⟩
    exact ⟨by have : a.val ≠ i.val := fun h => h2 (Fin.ext h); omega, h2, h3⟩
  · rintro ⟨h1, h2, h3⟩
    exact ⟨by omega, h2, h3⟩

theorem elimTwice_step (M : Matrix (Fin n) (Fin n) ℝ) (i j p : Fin n) (hp : p ≠ i) (B : Matrix (Fin n) (Fin n) ℝ)
    (hB : B = (elimTwice M i j p.val).updateRow p (elimTwice M i j p.val p + (-(M p j / M i j)) • elimTwice M i j p.val i)) :
    elimTwice M i j (p.val + 1) = if 1 / 1000000 ≤ |M p j| then
      B.updateRow p (B p + (-(M p j / M i j)) • B i) else elimTwice M i j p.val := by
  ext a b
  by_cases ha : a = p
  · subst ha
    split_ifs with h
    · rw [Matrix.updateRow_self]
      subst hB
      simp only [Pi.add_apply, Pi.smul_apply, smul_eq_mul, Matrix.updateRow_self, Matrix.updateRow_ne (Ne.symm hp)]
      simp only [elimTwice, Matrix.of_apply]
      rw [if_pos ⟨by omega, hp, h⟩, if_neg (by omega), if_neg (fun hh => hh.2.1 rfl)]
      ring
    · simp only [elimTwice, Matrix.of_apply]
      rw [if_neg (fun hh => h hh.2.2), if_neg (fun hh => h hh.2.2)]
  · have hne : a.val ≠ p.val := fun h => ha (Fin.ext h)
    have : elimTwice M i j (p.val + 1) a b = elimTwice M i j p.val a b := by
      simp only [elimTwice, Matrix.of_apply]
      refine if_congr ?_ rfl rfl
      constructor
      · rintro ⟨h1, h2⟩
        exact ⟨by omega, h2⟩
      · rintro ⟨h1, h2⟩
        exact ⟨by omega, h2⟩
    rw [this]
    split_ifs with h
    · rw [Matrix.updateRow_ne ha, hB, Matrix.updateRow_ne ha]
    · rfl

theorem gaussElimLoopMem_same (mem : MMem XR) (g : ℕ) (M : Matrix (Fin n) (Fin n) ℝ) (t : List XR) (i j : Fin n) (hy : M i j ≠ 0) :
    ∀ (k p : ℕ) (x : XR), n - p = k → p ≤ n →
      gaussElimLoopMem n (Function.update mem g (mat (elimTwice M i j p) t)) g g i j x (XR.fin (M i j)) p =
        ok (0, Function.update mem g (mat (elimTwice M i j n) t)) := by
  intro k
  induction k using Nat.strong_induction_on with
  | _ k ih =>
    intro p x hk hp
    rw [gaussElimLoopMem]
    by_cases hpn : p < n
    · rw [if_pos hpn]
      obtain ⟨p', hp', hge, hne, hE⟩ : ∃ p', p' = (if p = i.val then p + 1 else p) ∧ p ≤ p' ∧ p' ≠ i.val ∧
          elimTwice M i j p' = elimTwice M i j p := by
        refine ⟨_, rfl, ?_, ?_, ?_⟩
        · split_ifs <;> omega
        · split_ifs <;> omega
        · split_ifs with h
          · rw [h, elimTwice_self]
          · rfl
      rw [← hp', ← hE]
      dsimp only
      by_cases hend : p' = n
      · rw [if_pos hend, hend]
      · rw [if_neg hend]
        have hlt : p' < n := by
          have : p' ≤ p + 1 := by rw [hp']; split_ifs <;> omega
          omega
        obtain ⟨q, rfl⟩ : ∃ q : Fin n, q.val = p' := ⟨⟨p', hlt⟩, rfl⟩
        have hqi : q ≠ i := fun h => hne (by rw [h])
        have hself : elimTwice M i j q.val q j = M q j := by simp [elimTwice]
        rw [Function.update_self, mat_get, hself]
        simp only [ok_bind]
        have e1 := elimTwice_step M i j q hqi _ rfl
        by_cases hnz : 1 / 1000000 ≤ |M q j|
        · rw [if_pos ((isNonzeroE_fin _).2 hnz), XR.fin_div hy, XR.fin_neg]
          unfold onObj
          simp only [Function.update_self]
          rw [(mtx_row_ops_real _ _ _ _ _).2.1]
          simp only [ok_bind, pure_eq, ne_eq, not_true_eq_false, if_false, Function.update_self, Function.update_idem]
          rw [(mtx_row_ops_real _ _ _ _ _).2.1]
          simp only [ok_bind, not_true_eq_false, if_false]
          rw [if_pos hnz] at e1
          rw [← e1]
          exact ih (n - (q.val + 1)) (by omega) (q.val + 1) _ rfl (by omega)
        · rw [if_neg (by rw [isNonzeroE_fin]; exact hnz)]
          rw [if_neg hnz] at e1
          rw [← e1]
          exact ih (n - (q.val + 1)) (by omega) (q.val + 1) _ rfl (by omega)
    · rw [if_neg hpn]
      obtain rfl : p = n := by omega
      rfl

/-- C145, C25. When the matrix to be eliminated and the companion are the same object, every row operation is applied twice: the entries
of column `j` outside row `i` change their sign instead of becoming zero. -/
theorem mtx_gauss_elim_same (x0 : XR) (mem : MMem XR) (m : ℕ) (M : Matrix (Fin n) (Fin n) ℝ) (t : List XR) (i j : Fin n)
    (hm : mem m = mat M t) (hy : 1 / 1000000 ≤ |M i j|) :
    ∃ B : Matrix (Fin n) (Fin n) ℝ, mtxGaussElimMem x0 mem m m m i j = ok (0, Function.update mem m (mat B t)) ∧
      ∀ p, p ≠ i → 1 / 1000000 ≤ |M p j| → B p j = - M p j := by
  have h0 : M i j ≠ 0 := by
    intro h0
    rw [h0] at hy
    norm_num at hy
  refine ⟨elimTwice M i j n, ?_, ?_⟩
  · unfold mtxGaussElimMem
    rw [mtxCopyMem_self mem m (by rw [hm]; exact mtxOf_wf _ t)]
    simp only [ok_bind, ne_eq, not_true_eq_false, if_false]
    rw [hm, mat_get]
    simp only [ok_bind, not_true_eq_false, if_false]
    rw [if_neg (by rw [isZeroE_fin]; linarith), mat_rows]
    have := gaussElimLoopMem_same mem m M t i j h0 n 0 x0 (by omega) (by omega)
    rw [elimTwice_zero, ← hm, Function.update_eq_self] at this
    exact this
  · intro p hp hpj
    simp only [elimTwice, Matrix.of_apply]
    rw [if_pos ⟨p.2, hp, hpj⟩]
    field_simp
    ring

/-- C145, C25. `zsl_mtx_norm_elem(m, mn, mi, i, j)` for all pointers with `mn` and `mi` different. -/
theorem mtx_norm_elem_aliasing (x0 : R) (mem : MMem R) (m mn mi i j : ℕ) (h : mn ≠ mi) :
    mtxNormElemMem x0 mem m mn mi i j = (mtxNormElem x0 (mem m) (mem mn) (mem mi) i j >>= fun r =>
      ok (r.1, Function.update (Function.update mem mn r.2.1) mi r.2.2)) := by
  unfold mtxNormElemMem mtxNormElem normElemBody
  rw [mtx_copy_aliasing]
  cases hc : mtxCopy (mem mn) (mem m) with
  | ub => rfl
  | ok r =>
    have hmi : ∀ a : Mtx R, Function.update mem mn a = Function.update (Function.update mem mn a) mi (mem mi) := by
      intro a
      conv_lhs => rw [← Function.update_eq_self mi (Function.update mem mn a)]
      rw [Function.update_of_ne (Ne.symm h)]
    simp only [ok_bind]
    by_cases h1 : r.1 ≠ 0
    · rw [if_pos h1, if_pos h1, pure_eq, pure_eq, ok_bind, ← hmi]
    rw [if_neg h1, if_neg h1, Function.update_self]
    cases mtxGet r.2 i j x0 with
    | ub => rfl
    | ok s =>
      simp only [ok_bind]
      by_cases h2 : s.1 ≠ 0
      · rw [if_pos h2, if_pos h2, pure_eq, pure_eq, ok_bind, ← hmi]
      rw [if_neg h2, if_neg h2]
      by_cases h3 : isZeroE s.2
      · rw [if_pos h3, if_pos h3, pure_eq, pure_eq, ok_bind, ← hmi]
      rw [if_neg h3, if_neg h3]
      unfold onObj
      rw [Function.update_self]
      dsimp only
      cases mtxScalarMultRowD r.2 i (lit 1 / s.2) with
      | ub => rfl
      | ok u =>
        simp only [ok_bind, pure_eq, Function.update_idem]
        by_cases h4 : u.1 ≠ 0
        · rw [if_pos h4, if_pos h4, ok_bind, ← hmi]
        rw [if_neg h4, if_neg h4, Function.update_of_ne (Ne.symm h)]
        cases mtxScalarMultRowD (mem mi) i (lit 1 / s.2) with
        | ub => rfl
        | ok w =>
          simp only [ok_bind]
          split_ifs <;> rfl

/-- C145, C25. When the matrix to be normalised and the companion are the same object, the row is divided twice, and the element does
not become one. -/
theorem mtx_norm_elem_same (x0 : XR) (mem : MMem XR) (m : ℕ) (M : Matrix (Fin n) (Fin n) ℝ) (t : List XR) (i j : Fin n)
    (hm : mem m = mat M t) (hy : 1 / 1000000 ≤ |M i j|) :
    ∃ B : Matrix (Fin n) (Fin n) ℝ, mtxNormElemMem x0 mem m m m i j = ok (0, Function.update mem m (mat B t)) ∧
      B i j = 1 / M i j ∧ (B i j = 1 ↔ M i j = 1) ∧ ∀ p, p ≠ i → B p = M p := by
  have h0 : M i j ≠ 0 := by
    intro h0
    rw [h0] at hy
    norm_num at hy
  refine ⟨normMat i (M i j) * (normMat i (M i j) * M), ?_, ?_, ?_, ?_⟩
  · unfold mtxNormElemMem
    rw [mtxCopyMem_self mem m (by rw [hm]; exact mtxOf_wf _ t)]
    simp only [ok_bind, ne_eq, not_true_eq_false, if_false]
    rw [hm, mat_get]
    simp only [ok_bind, not_true_eq_false, if_false]
    rw [if_neg (by rw [isZeroE_fin]; linarith), XR.lit_eq, Rat.cast_one, XR.fin_div h0]
    unfold onObj
    rw [hm]
    dsimp only
    rw [(mtx_row_ops_real M t i i _).2.2]
    simp only [ok_bind, pure_eq, not_true_eq_false, if_false, Function.update_self, Function.update_idem]
    rw [(mtx_row_ops_real _ t i i _).2.2]
    simp only [ok_bind, not_true_eq_false, if_false]
    rw [updateRow_eq_normMat, updateRow_eq_normMat]
  · rw [normMat_mul, if_pos rfl, normMat_mul, if_pos rfl, div_self h0]
  · rw [normMat_mul, if_pos rfl, normMat_mul, if_pos rfl, div_self h0]
    constructor
    · intro h
      field_simp at h
      exact h.symm
    · intro h
      rw [h]
      norm_num
  · intro p hp
    funext b
    rw [normMat_mul, if_neg hp, normMat_mul, if_neg hp]

/-! ### Balancing, minors, cofactors -/

/-- C145, C30. `zsl_mtx_balance(m, mout)` for all pointers. -/
theorem mtx_balance_aliasing (fuel : ℕ) (junk : ℕ → R) (mem : MMem R) (m mout : ℕ) :
    mtxBalanceMem fuel junk mem m mout =
      (mtxBalance fuel junk (mem m) (mem mout) >>= fun r => ok (r.1, Function.update mem mout r.2)) := by
  unfold mtxBalanceMem mtxBalance
  by_cases h1 : (mem m).rows ≠ (mem m).cols ∨ (mem mout).rows ≠ (mem mout).cols
  · rw [if_pos h1, if_pos h1]
    simp
  rw [if_neg h1, if_neg h1]
  by_cases h2 : (mem m).rows ≠ (mem mout).rows
  · rw [if_pos h2, if_pos h2]
    simp
  rw [if_neg h2, if_neg h2]
  by_cases h3 : (mem m).cols ≠ (mem mout).cols
  · rw [if_pos h3, if_pos h3]
    simp
  rw [if_neg h3, if_neg h3, mtx_copy_aliasing]
  cases hc : mtxCopy (mem mout) (mem m) with
  | ub => rfl
  | ok r =>
    simp only [ok_bind]
    by_cases h4 : r.1 ≠ 0
    · rw [if_pos h4, if_pos h4]
      rfl
    rw [if_neg h4, if_neg h4, Function.update_self]
    have hrows : (Function.update mem mout r.2 m).rows = (mem m).rows := by
      by_cases hmm : m = mout
      · subst hmm
        rw [Function.update_self]
        exact (NoChkL.shp_copy (r := (mem m).rows) (c := (mem m).cols) ⟨rfl, rfl⟩ hc).1
      · rw [Function.update_of_ne hmm]
    rw [hrows]
    cases balanceLoop fuel (mem m).rows (junk 0) (junk 1) r.2.data with
    | ub => rfl
    | ok d => simp [MMem.setData]

/-- C145, C21. `zsl_mtx_reduce(m, mr, i, j)` for all pointers; in place it is always refused. -/
theorem mtx_reduce_aliasing (junk : ℕ → R) (x0 : R) (mem : MMem R) (m mr i j : ℕ) :
    mtxReduceMem junk x0 mem m mr i j =
      (mtxReduce junk x0 (mem m) (mem mr) i j >>= fun r => ok (r.1, Function.update mem mr r.2)) ∧
    (0 < (mem m).rows → mtxReduceMem junk x0 mem m m i j = ok (-EINVAL, mem)) := by
  constructor
  · unfold mtxReduceMem mtxReduce
    by_cases h0 : (mem mr).rows = 0
    · rw [if_pos h0, if_pos h0]
      rfl
    rw [if_neg h0, if_neg h0]
    by_cases h1 : (mem mr).rows ≠ szSub (mem m).rows 1
    · rw [if_pos h1, if_pos h1]
      simp
    rw [if_neg h1, if_neg h1]
    by_cases h2 : (mem mr).cols ≠ szSub (mem m).cols 1
    · rw [if_pos h2, if_pos h2]
      simp
    rw [if_neg h2, if_neg h2]
    by_cases h3 : i ≥ (mem m).rows ∨ j ≥ (mem m).cols
    · rw [if_pos h3, if_pos h3]
      simp
    rw [if_neg h3, if_neg h3]
    simp only [onObj, bind_assoc', ok_bind, pure_eq]
  · intro h
    unfold mtxReduceMem
    rw [if_neg (by omega), if_pos (by rw [szSub_le (by omega)]; omega)]

/-- C145, C23. `zsl_mtx_adjoint(m, ma)` with two different matrices. -/
theorem mtx_adjoint_separate (junk : ℕ → R) (mem : MMem R) (m ma : ℕ) (h : m ≠ ma) (hm : (mem m).WF) :
    mtxAdjointMem junk mem m ma =
      (mtxAdjoint junk (mem m) (mem ma) >>= fun r => ok (r.1, Function.update mem ma r.2)) := by
  unfold mtxAdjointMem mtxAdjoint
  by_cases h1 : (mem m).rows = 3
  · rw [if_pos h1, if_pos h1]
    exact mtx_adjoint_3x3_separate mem m ma h hm
  rw [if_neg h1, if_neg h1]
  by_cases h2 : (mem m).rows ≠ (mem m).cols
  · rw [if_pos h2, if_pos h2]
    simp
  rw [if_neg h2, if_neg h2]
  by_cases h3 : (mem m).cols = 1
  · rw [if_pos h3, if_pos h3]
    rfl
  rw [if_neg h3, if_neg h3]
  have := (forN_sim (n := (mem m).cols) (f := fun i s =>
      forN (mem m).cols (fun j (s : R × Mtx R × Mtx R) => do
        let (d, mr, ma) := s
        let sign : R := if (i + j) % 2 ≠ 0 then lit (-1) else lit 1
        let (_, mr) ← mtxReduce junk (junk 0) (mem m) mr i j
        let (_, d) ← mtxDeter junk mr d
        let d := d * sign
        let (_, ma) ← mtxSet ma i j d
        return (d, mr, ma)) s) (g := fun i s =>
      forN (mem m).cols (fun j (s : R × Mtx R × MMem R) => do
        let (d, mr, mem) := s
        let sign : R := if (i + j) % 2 ≠ 0 then lit (-1) else lit 1
        let (_, mr) ← mtxReduce junk (junk 0) (mem m) mr i j
        let (_, d) ← mtxDeter junk mr d
        let d := d * sign
        let (_, mem) ← onObj mem ma (fun x => mtxSet x i j d)
        return (d, mr, mem)) s) (fun s => (s.1, s.2.1, Function.update mem ma s.2.2)) (fun _ _ => True)
      (t := (junk 0, Mtx.uninit junk ((mem m).cols - 1) ((mem m).cols - 1), mem ma)) trivial ?_).1
  · dsimp only at this
    rw [Function.update_eq_self] at this
    rw [this]
    simp only [bind_assoc', ok_bind, pure_eq]
  · intro i _ s _
    refine ⟨(forN_sim (fun s : R × Mtx R × Mtx R => (s.1, s.2.1, Function.update mem ma s.2.2)) (fun _ _ => True) trivial
      fun j _ s _ => ⟨?_, fun _ _ => trivial⟩).1, fun _ _ => trivial⟩
    obtain ⟨d, mr, a⟩ := s
    simp only [Function.update_of_ne h, onObj, Function.update_self, Function.update_idem, bind_assoc', ok_bind, pure_eq]

/-- C145, C23. In place on a 2x2 matrix the second row of cofactors is computed from the first row of cofactors: where the cofactors are
(d, -c; -b, a), the call stores (d, -c; c, d). -/
theorem mtx_adjoint_in_place (junk : ℕ → XR) (mem : MMem XR) (m : ℕ) (a b c d : ℝ) (t : List XR)
    (hm : mem m = mat !![a, b; c, d] t) :
    mtxAdjointMem junk mem m m = ok (0, Function.update mem m (mat !![d, -c; c, d] t)) := by
  have step : ∀ (A : Matrix (Fin 2) (Fin 2) ℝ) (i j : Fin 2) (x : XR) (f : Matrix (Fin 1) (Fin 1) XR) (u : List XR),
      ∃ g : Matrix (Fin 1) (Fin 1) XR, (do
        let (_, mr) ← mtxReduce junk (junk 0) (mat A t) (mtxOf f u) i.val j.val
        let (_, d) ← mtxDeter junk mr x
        let d := d * (if (i.val + j.val) % 2 ≠ 0 then lit (-1) else lit 1 : XR)
        let (_, mem) ← onObj (Function.update mem m (mat A t)) m (fun x => mtxSet x i.val j.val d)
        return (d, mr, mem)) =
      ok (XR.fin (A (i + 1) (j + 1) * if (i.val + j.val) % 2 ≠ 0 then -1 else 1), mtxOf g u,
        Function.update mem m (mat (Matrix.of fun p q => if p = i ∧ q = j then
          (A (i + 1) (j + 1) * if (i.val + j.val) % 2 ≠ 0 then -1 else 1) else A p q) t)) := by
    intro A i j x f u
    have hr : mtxReduce junk (junk 0) (mat A t) (mtxOf f u) i.val j.val =
        ok (0, mat (A.submatrix i.succAbove j.succAbove) u) := mtx_reduce_correct junk (junk 0) (A.map XR.fin) f t u i j (by omega)
    refine ⟨(A.submatrix i.succAbove j.succAbove).map XR.fin, ?_⟩
    rw [hr]
    simp only [ok_bind]
    rw [mtx_deter_correct]
    simp only [ok_bind]
    have hd : (A.submatrix i.succAbove j.succAbove).det = A (i + 1) (j + 1) := by
      rw [Matrix.det_fin_one]
      fin_cases i <;> fin_cases j <;> rfl
    have hs : (XR.fin (A (i + 1) (j + 1)) * (if (i.val + j.val) % 2 ≠ 0 then lit (-1) else lit 1 : XR)) =
        XR.fin (A (i + 1) (j + 1) * if (i.val + j.val) % 2 ≠ 0 then -1 else 1) := by
      split_ifs <;> simp [XR.lit_eq, XR.fin_mul]
    rw [hd, hs]
    unfold onObj
    rw [Function.update_self]
    dsimp only
    rw [mat_set]
    simp only [ok_bind, pure_eq, Function.update_idem]
    rfl
  let F : ℕ → ℕ → XR × Mtx XR × MMem XR → Out (XR × Mtx XR × MMem XR) := fun i j s => do
    let (d, mr, mem) := s
    let sign : XR := if (i + j) % 2 ≠ 0 then lit (-1) else lit 1
    let (_, mr) ← mtxReduce junk (junk 0) (mem m) mr i j
    let (_, d) ← mtxDeter junk mr d
    let d := d * sign
    let (_, mem) ← onObj mem m (fun x => mtxSet x i j d)
    return (d, mr, mem)
  have stepF : ∀ (A B : Matrix (Fin 2) (Fin 2) ℝ) (i j : Fin 2) (x : XR) (f : Matrix (Fin 1) (Fin 1) XR),
      (B = Matrix.of fun p q => if p = i ∧ q = j then
          (A (i + 1) (j + 1) * if (i.val + j.val) % 2 ≠ 0 then -1 else 1) else A p q) →
      ∃ (x' : XR) (g : Matrix (Fin 1) (Fin 1) XR), F i.val j.val (x, mtxOf f [], Function.update mem m (mat A t)) =
        ok (x', mtxOf g [], Function.update mem m (mat B t)) := by
    intro A B i j x f hB
    obtain ⟨g, hg⟩ := step A i j x f []
    refine ⟨XR.fin (A (i + 1) (j + 1) * if (i.val + j.val) % 2 ≠ 0 then -1 else 1), g, ?_⟩
    rw [hB, ← hg]
    simp only [F, Function.update_self]
  unfold mtxAdjointMem
  rw [hm, if_neg (by simp), if_neg (by simp), if_neg (by simp), mat_cols]
  have h0 : mem = Function.update mem m (mat !![a, b; c, d] t) := by rw [← hm, Function.update_eq_self]
  conv_lhs => rw [h0]
  obtain ⟨f, hf⟩ := uninit_eq junk 1 1
  rw [show (2 : ℕ) - 1 = 1 from rfl, hf]
  change (forN 2 (fun i s => forN 2 (fun j s => F i j s) s) _ >>= _) = _
  simp only [forN, ok_bind]
  obtain ⟨x1, g1, e1⟩ := stepF !![a, b; c, d] !![d, b; c, d] 0 0 (junk 0) f (by
    ext p q; fin_cases p <;> fin_cases q <;> simp)
  obtain ⟨x2, g2, e2⟩ := stepF !![d, b; c, d] !![d, -c; c, d] 0 1 x1 g1 (by
    ext p q; fin_cases p <;> fin_cases q <;> simp)
  obtain ⟨x3, g3, e3⟩ := stepF !![d, -c; c, d] !![d, -c; c, d] 1 0 x2 g2 (by
    ext p q; fin_cases p <;> fin_cases q <;> simp)
  obtain ⟨x4, g4, e4⟩ := stepF !![d, -c; c, d] !![d, -c; c, d] 1 1 x3 g3 (by
    ext p q; fin_cases p <;> fin_cases q <;> simp)
  simp only [Fin.val_zero, Fin.val_one] at e1
  simp only [Fin.val_zero, Fin.val_one] at e2
  simp only [Fin.val_zero, Fin.val_one] at e3
  simp only [Fin.val_zero, Fin.val_one] at e4
  rw [e1, ok_bind, e2, ok_bind, e3, ok_bind, e4]
  rfl

/-- C145, C23, negation: the cofactors computed in place are wrong. -/
theorem mtx_adjoint_in_place_wrong : ∃ A : Matrix (Fin 2) (Fin 2) ℝ, ∀ (junk : ℕ → XR) (mem : MMem XR) (m : ℕ) (t : List XR),
    mem m = mat A t → ∃ B : Matrix (Fin 2) (Fin 2) ℝ, mtxAdjointMem junk mem m m = ok (0, Function.update mem m (mat B t)) ∧
      ∀ i j, ¬ (i = 0) → B i j ≠ A.adjugate j i := by
  refine ⟨!![1, 2; 3, 4], fun junk mem m t h => ⟨!![4, -3; 3, 4], mtx_adjoint_in_place junk mem m 1 2 3 4 t h, ?_⟩⟩
  intro i j hi
  rw [Matrix.adjugate_fin_two]
  fin_cases i <;> fin_cases j <;> simp at hi ⊢ <;> norm_num

/-! ### QR -/

/-- C145, C29. `zsl_mtx_qrd(m, q, r, hessenberg)` for all pointers with `q` and `r` different: `m` may be `q` or `r`. -/
theorem mtx_qrd_aliasing (junk : ℕ → R) (mem : MMem R) (m q r : ℕ) (hqr : q ≠ r) (hess : Bool) :
    mtxQrdMem junk mem m q r hess = (mtxQrd junk (mem m) (mem q) (mem r) hess >>= fun p =>
      ok (p.1, Function.update (Function.update mem r p.2.2) q p.2.1)) := by
  unfold mtxQrdMem mtxQrd
  by_cases h : (mem m).rows = 0 ∨ (mem m).cols = 0
  · rw [if_pos h, if_pos h]
    rfl
  rw [if_neg h, if_neg h]
  cases mtxInit (Mtx.uninit junk (mem m).rows (mem m).rows) none with
  | ub => rfl
  | ok a =>
    simp only [ok_bind]
    cases mtxInit (Mtx.uninit junk (mem m).rows (mem m).rows) (some entryFnIdentity) with
    | ub => rfl
    | ok b =>
      simp only [ok_bind]
      rw [mtx_copy_aliasing]
      cases hc : mtxCopy (mem r) (mem m) with
      | ub => rfl
      | ok c =>
        simp only [ok_bind]
        have hs : (Function.update mem r c.2 m).rows = (mem m).rows ∧ (Function.update mem r c.2 m).cols = (mem m).cols := by
          by_cases hmr : m = r
          · subst hmr
            rw [Function.update_self]
            exact NoChkL.shp_copy (r := (mem m).rows) (c := (mem m).cols) ⟨rfl, rfl⟩ hc
          · rw [Function.update_of_ne hmr]
            exact ⟨rfl, rfl⟩
        rw [hs.1, hs.2, Function.update_self]
        cases forN (szSub (mem m).rows 1) (fun g s => qrdStep junk (mem m).rows (mem m).cols hess g s)
            (Mtx.uninit junk (mem m).rows (mem m).cols, Mtx.uninit junk (mem m).rows (mem m).cols, a.2,
              Mtx.uninit junk (mem m).rows (mem m).rows, b.2, c.2) with
        | ub => rfl
        | ok d =>
          obtain ⟨_, _, _, _, qt, x⟩ := d
          simp only [ok_bind, Function.update_idem, onObj, Function.update_of_ne hqr, bind_assoc', pure_eq]

/-- C145, C30. `zsl_mtx_qrd_iter(m, mout, iter)` for all pointers. -/
theorem mtx_qrd_iter_aliasing (junk : ℕ → R) (mem : MMem R) (m mout iter : ℕ) :
    mtxQrdIterMem junk mem m mout iter =
      (mtxQrdIter junk (mem m) (mem mout) iter >>= fun p => ok (p.1, Function.update mem mout p.2)) := by
  unfold mtxQrdIterMem mtxQrdIter
  by_cases h : (mem m).rows = 0
  · rw [if_pos h, if_pos h]
    rfl
  rw [if_neg h, if_neg h]
  dsimp only
  rw [mtx_copy_aliasing]
  cases hc : mtxCopy (mem mout) (mem m) with
  | ub => rfl
  | ok c =>
    simp only [ok_bind]
    by_cases h1 : c.1 ≠ 0
    · rw [if_pos h1, if_pos h1]
      rfl
    rw [if_neg h1, if_neg h1]
    have := (forN_sim (n := iter) (f := fun _ (s : Mtx R × Mtx R × Mtx R) => do
        let (q, r, mout) := s
        let (_, q, r) ← mtxQrd junk mout q r false
        let (_, mout) ← mtxMult r q mout
        return (q, r, mout)) (g := fun _ (s : Mtx R × Mtx R × MMem R) => do
        let (q, r, mem) := s
        let (_, q, r) ← mtxQrd junk (mem mout) q r false
        let (_, mem) ← onObj mem mout (fun x => mtxMult r q x)
        return (q, r, mem)) (fun s => (s.1, s.2.1, Function.update mem mout s.2.2)) (fun _ _ => True)
        (t := (Mtx.uninit junk (mem m).rows (mem m).rows, Mtx.uninit junk (mem m).rows (mem m).rows, c.2)) trivial ?_).1
    · dsimp only at this
      rw [this]
      simp only [bind_assoc', ok_bind, pure_eq]
    · rintro i _ ⟨q, r, x⟩ -
      refine ⟨?_, fun _ _ => trivial⟩
      simp only [Function.update_self, onObj, Function.update_idem, bind_assoc', ok_bind, pure_eq]

/-! ### Quaternions -/

/-- C145. `zsl_quat_pow(q, exp, qout)` for all pointers. -/
theorem quat_pow_aliasing (mem : QMem R) (q : ℕ) (e : R) (qout : ℕ) :
    quatPowMem mem q e qout = (quatPow (mem q) e >>= fun y => ok (Function.update mem qout y)) := by
  unfold quatPowMem quatPow
  simp only [bind_assoc', QMem.put_eq, pure_eq]

/-- Non-vacuity: eliminating with the matrix as its own companion turns (1, 0; 1, 1) into (1, 0; -1, 1). -/
example (mem : MMem XR) (h : mem 0 = mat !![1, 0; 1, 1] []) : ∃ B : Matrix (Fin 2) (Fin 2) ℝ,
    mtxGaussElimMem (lit 0) mem 0 0 0 0 0 = ok (0, Function.update mem 0 (mat B [])) ∧ B 1 0 = -1 := by
  obtain ⟨B, h1, h2⟩ := mtx_gauss_elim_same (lit 0) mem 0 _ _ (0 : Fin 2) (0 : Fin 2) h (by norm_num)
  exact ⟨B, h1, by simpa using h2 1 (by decide) (by norm_num)⟩

end Verif
