import Verif.Model.AliasDec
import Verif.Props.Alias6
import Verif.Props.Stat7
import Verif.Props.Stat2
import Verif.Props.Svd2

/-!
# Calls whose arguments share storage: mode, covariance matrix, Householder matrix, eigenvectors, singular values, pseudo-inverse
-/

set_option linter.unusedSectionVars false

namespace Verif

open Out

variable {R : Type} [CReal R] {m n : ℕ}

/-! ### Functions that write their output last -/

/-- C145, C28. `zsl_mtx_householder(m, h, hessenberg)` for all pointers. -/
theorem mtx_householder_aliasing (junk : ℕ → R) (mem : MMem R) (p h : ℕ) (hess : Bool) :
    mtxHouseholderMem junk mem p h hess =
      (mtxHouseholder junk (mem p) (mem h) hess >>= fun r => ok (r.1, Function.update mem h r.2)) := by
  unfold mtxHouseholderMem mtxHouseholder
  dsimp only
  by_cases h0 : (if hess = true then szSub (mem p).rows 1 else (mem p).rows) = 0 ∨ (mem p).rows = 0
  · rw [if_pos h0, if_pos h0]
    rfl
  · rw [if_neg h0, if_neg h0]
    simp only [onObj, bind_assoc', ok_bind, pure_eq]

/-- C145, C121. `zsl_mtx_pinv(m, pinv, iter)` for all pointers. -/
theorem mtx_pinv_aliasing (fuel : ℕ) (junk : ℕ → R) (mem : MMem R) (p q iter : ℕ) :
    mtxPinvMem fuel junk mem p q iter =
      (mtxPinv fuel junk (mem p) (mem q) iter >>= fun r => ok (r.1, Function.update mem q r.2)) := by
  unfold mtxPinvMem mtxPinv
  split
  · rfl
  · simp only [onObj, bind_assoc', ok_bind, pure_eq]

/-! ### Eigenvectors -/

/-- Setting a column does not change the shape. -/
theorem setCol_shape {a : Mtx R} {j : ℕ} {v : List R} {r : Int × Mtx R} (h : mtxSetCol a j v = ok r) :
    r.2.rows = a.rows ∧ r.2.cols = a.cols := by
  exact NoChkL.shp_setCol (r := a.rows) (c := a.cols) ⟨rfl, rfl⟩ h

/-- The call up to the comparison of the sizes: the memory is that of the model of values, whatever the pointers. -/
theorem mtxEigenvectorsMem_eq (fuel : ℕ) (junk : ℕ → R) (mem : MMem R) (p q iter : ℕ) (orth : Bool) :
    mtxEigenvectorsMem fuel junk mem p q iter orth =
      (mtxEigenvectors fuel junk (mem p) (mem q) iter orth >>= fun r =>
        ok (if p = q then 0 else r.1, Function.update mem q r.2)) := by
  unfold mtxEigenvectorsMem mtxEigenvectors
  split
  · rfl
  simp only [bind_assoc']
  congr 1; funext a
  congr 1; funext b
  congr 1; funext c
  congr 1; funext d
  congr 1; funext s
  obtain ⟨_, _, _, _, f, mev2, b⟩ := s
  dsimp only
  have := forN_sim (n := b) (f := fun s (st : List R × Mtx R) => do
      let (_, fd) ← mtxGetCol mev2 s st.1
      let (_, mev) ← mtxSetCol st.2 s fd
      return (fd, mev)) (g := fun s (st : List R × MMem R) => do
      let (_, fd) ← mtxGetCol mev2 s st.1
      let (_, mem) ← onObj st.2 q (fun x => mtxSetCol x s fd)
      return (fd, mem)) (fun st => (st.1, Function.update mem q st.2)) (fun _ st => st.2.cols = b)
      (t := (f.data, { mem q with cols := b })) rfl ?_
  · dsimp only at this
    rw [this.1, bind_assoc']
    cases hc : forN b (fun s (st : List R × Mtx R) => do
        let (_, fd) ← mtxGetCol mev2 s st.1
        let (_, mev) ← mtxSetCol st.2 s fd
        return (fd, mev)) (f.data, { mem q with cols := b }) with
    | ub => rfl
    | ok r =>
      have hr := this.2 _ hc
      simp only [ok_bind, pure_eq]
      by_cases hpq : p = q
      · subst hpq
        rw [Function.update_self, if_neg (by rw [hr]; simp)]
        split <;> simp
      · rw [Function.update_of_ne hpq]
        split <;> simp [hpq]
  · rintro i _ ⟨l, x⟩ hx
    dsimp only at hx ⊢
    constructor
    · simp only [onObj, Function.update_self, Function.update_idem, bind_assoc', ok_bind, pure_eq]
    · intro t' ht
      cases h1 : mtxGetCol mev2 i l with
      | ub => simp [h1] at ht
      | ok a =>
        simp only [h1, ok_bind] at ht
        cases h2 : mtxSetCol x i a.2 with
        | ub => simp [h2] at ht
        | ok c =>
          simp only [h2, ok_bind, pure_eq, ok.injEq] at ht
          subst ht
          dsimp only
          rw [(setCol_shape h2).2, hx]

/-- C145, C119. `zsl_mtx_eigenvectors(m, mev, iter, orthonormal)` with two different matrices. -/
theorem mtx_eigenvectors_separate (fuel : ℕ) (junk : ℕ → R) (mem : MMem R) (p q iter : ℕ) (orth : Bool) (h : p ≠ q) :
    mtxEigenvectorsMem fuel junk mem p q iter orth =
      (mtxEigenvectors fuel junk (mem p) (mem q) iter orth >>= fun r => ok (r.1, Function.update mem q r.2)) := by
  rw [mtxEigenvectorsMem_eq]
  simp only [if_neg h]

/-- C145, C119. In place the matrix stored is right, but its width is compared with itself: the call always reports success, also when it
has found fewer eigenvectors than the matrix has columns. -/
theorem mtx_eigenvectors_in_place (fuel : ℕ) (junk : ℕ → R) (mem : MMem R) (p iter : ℕ) (orth : Bool) :
    mtxEigenvectorsMem fuel junk mem p p iter orth =
      (mtxEigenvectors fuel junk (mem p) (mem p) iter orth >>= fun r => ok (0, Function.update mem p r.2)) := by
  rw [mtxEigenvectorsMem_eq]
  simp

/-! ### Singular values -/

/-- C145, C120. `zsl_mtx_svd(m, u, e, v, iter)` with four different matrices. -/
theorem mtx_svd_separate (fuel : ℕ) (junk : ℕ → R) (mem : MMem R) (p u e v iter : ℕ) (hpu : p ≠ u) (hpe : p ≠ e) (hpv : p ≠ v)
    (hue : u ≠ e) (huv : u ≠ v) (hev : e ≠ v) :
    mtxSvdMem fuel junk mem p u e v iter = (mtxSvd fuel junk (mem p) (mem u) (mem e) (mem v) iter >>= fun r =>
      ok (r.1, Function.update (Function.update (Function.update mem e r.2.2.1) v r.2.2.2) u r.2.1)) := by
  unfold mtxSvdMem mtxSvd
  split
  · rfl
  simp only [bind_assoc']
  congr 1; funext a
  congr 1; funext b
  congr 1; funext c
  congr 1; funext d
  simp only [onObj, bind_assoc', ok_bind, pure_eq]
  congr 1; funext e1
  set k := if (mem p).rows ≤ (mem p).cols then (mem p).rows else (mem p).cols with hk
  have h1 := (forN_sim (n := k) (f := fun g x => do
      let a ← rd d.2.data g
      let (_, x) ← mtxSet x g g (CReal.sqrt a)
      return x) (g := fun g (mem : MMem R) => do
      let a ← rd d.2.data g
      let r ← mtxSet (mem e) g g (CReal.sqrt a)
      ok (Function.update mem e r.2)) (fun x => Function.update mem e x) (fun _ _ => True) (t := e1.2) trivial ?_).1
  · rw [h1, bind_assoc']
    congr 1; funext e2
    have hM : Function.update mem e e2 v = mem v := Function.update_of_ne hev.symm _ _
    rw [ok_bind, hM]
    congr 1; funext v2
    have hMv : ∀ x, Function.update (Function.update (Function.update mem e e2) v v2.2) u x v = v2.2 := fun x => by
      rw [Function.update_of_ne huv.symm, Function.update_self]
    have hMe : ∀ x, Function.update (Function.update (Function.update mem e e2) v v2.2) u x e = e2 := fun x => by
      rw [Function.update_of_ne hue.symm, Function.update_of_ne hev, Function.update_self]
    have hMp : ∀ x, Function.update (Function.update (Function.update mem e e2) v v2.2) u x p = mem p := fun x => by
      rw [Function.update_of_ne hpu, Function.update_of_ne hpv, Function.update_of_ne hpe]
    have hMu : Function.update (Function.update mem e e2) v v2.2 u = mem u := by
      rw [Function.update_of_ne huv, Function.update_of_ne hue]
    set M := Function.update (Function.update mem e e2) v v2.2 with hMdef
    have h2 := (forN_sim (n := k) (f := fun i (s : R × List R × Mtx R × Nat) => do
      let (d, ui, u, pu) := s
      let (_, ui) ← mtxGetCol v2.2 i ui
      let (_, ui2) ← mtxFromArr (Mtx.uninit junk (mem p).cols 1) ui
      let (_, d) ← mtxGet e2 i i d
      let (_, ui3) ← mtxMult (mem p) ui2 (Mtx.uninit junk (mem p).rows 1)
      if isSmall d then return (d, ui, u, pu + 1)
      else do
        let (_, ui3) ← mtxScalarMultD ui3 (lit 1 / d)
        let (_, uv) ← vecFromArr ⟨(mem p).rows, ui⟩ ui3.data
        let (_, u) ← mtxSetCol u i uv.data
        return (d, uv.data, u, pu)) (g := fun i (s : R × List R × MMem R × Nat) => do
      let (d, ui, mem', pu) := s
      let (_, ui) ← mtxGetCol (mem' v) i ui
      let (_, ui2) ← mtxFromArr (Mtx.uninit junk (mem p).cols 1) ui
      let (_, d) ← mtxGet (mem' e) i i d
      let (_, ui3) ← mtxMult (mem' p) ui2 (Mtx.uninit junk (mem p).rows 1)
      if isSmall d then return (d, ui, mem', pu + 1)
      else do
        let (_, ui3) ← mtxScalarMultD ui3 (lit 1 / d)
        let (_, uv) ← vecFromArr ⟨(mem p).rows, ui⟩ ui3.data
        let (_, mem') ← onObj mem' u (fun x => mtxSetCol x i uv.data)
        return (d, uv.data, mem', pu)) (fun s => (s.1, s.2.1, Function.update M u s.2.2.1, s.2.2.2)) (fun _ _ => True)
      (t := (junk 0, junkArr junk (mem p).rows, mem u, 0)) trivial ?_).1
    · dsimp only at h2
      rw [← hMu, Function.update_eq_self] at h2
      simp only [onObj, bind_assoc', ok_bind, pure_eq] at h2
      rw [h2, bind_assoc', hMu]
      congr 1; funext st
      obtain ⟨d1, l1, x1, pu⟩ := st
      rw [ok_bind]
      dsimp only
      rw [hMp]
      congr 1; funext up
      have h3 := (forN_sim (n := (mem p).rows - (k - pu)) (f := fun f' (s : List R × Mtx R) => do
        let hu ← mtxGetCol up.2 (k - pu + f') s.1
        let x ← mtxSetCol s.2 (k - pu + f') hu.2
        ok (hu.2, x.2)) (g := fun f' (s : List R × MMem R) => do
        let hu ← mtxGetCol up.2 (k - pu + f') s.1
        let x ← mtxSetCol (s.2 u) (k - pu + f') hu.2
        ok (hu.2, Function.update s.2 u x.2)) (fun s => (s.1, Function.update M u s.2)) (fun _ _ => True)
        (t := (junkArr junk (mem p).rows, x1)) trivial ?_).1
      · dsimp only at h3
        rw [h3, bind_assoc']
        rfl
      · rintro i _ ⟨l, x⟩ -
        refine ⟨?_, fun _ _ => trivial⟩
        simp only [Function.update_self, Function.update_idem, bind_assoc', ok_bind, pure_eq]
    · rintro i _ ⟨dd, ui, x, pu⟩ -
      refine ⟨?_, fun _ _ => trivial⟩
      dsimp only
      rw [hMv, hMe, hMp]
      simp only [bind_assoc']
      congr 1; funext a1
      congr 1; funext a2
      congr 1; funext a3
      congr 1; funext a4
      split
      · rfl
      · simp only [onObj, Function.update_self, Function.update_idem, bind_assoc', ok_bind, pure_eq]
  · intro i _ x _
    refine ⟨?_, fun _ _ => trivial⟩
    simp only [Function.update_self, Function.update_idem, bind_assoc', ok_bind, pure_eq]

/-- C145, C120. When `e` is the matrix itself the call cannot tell `A` from `-A`: everything it reads of the matrix before it clears it is
`A * Aᵀ` and `Aᵀ * A`. -/
theorem mtx_svd_over_e (fuel : ℕ) (junk : ℕ → XR) (mem : MMem XR) (p u v iter : ℕ) (A : Matrix (Fin m) (Fin n) ℝ) (t : List XR)
    (hm : 0 < m) (hn : 0 < n) :
    mtxSvdMem fuel junk (Function.update mem p (mat A t)) p u p v iter =
      mtxSvdMem fuel junk (Function.update mem p (mat (-A) t)) p u p v iter := by
  obtain ⟨At, hAt⟩ := uninit_eq junk n m
  obtain ⟨X1, hX1⟩ := uninit_eq junk m m
  obtain ⟨X2, hX2⟩ := uninit_eq junk n n
  have htr : ∀ B : Matrix (Fin m) (Fin n) ℝ, mtxTrans junk (mat B t) (mtxOf At []) = ok (0, mat B.transpose []) := fun B =>
    mtx_trans_correct junk (B.map XR.fin) At t [] hn
  have hin : ∀ B : Matrix (Fin m) (Fin n) ℝ, mtxInit (mat B t) none = ok (0, mtxOf (Matrix.of fun (_ : Fin m) (_ : Fin n) => lit 0) t) :=
    fun B => mtx_init_null (B.map XR.fin) t
  unfold mtxSvdMem
  simp only [Function.update_self, mat_rows, mat_cols]
  have h0 : ¬(m = 0 ∨ n = 0) := by omega
  simp only [if_neg h0]
  rw [hAt, htr, htr]
  simp only [ok_bind]
  rw [hX1, hX2, mtx_mult_correct, mtx_mult_correct, mtx_mult_correct, mtx_mult_correct]
  simp only [ok_bind, Matrix.transpose_neg, Matrix.neg_mul, Matrix.mul_neg, neg_neg]
  simp only [onObj, Function.update_self, hin, ok_bind, Function.update_idem, bind_assoc', pure_eq]

theorem mat_injective {A B : Matrix (Fin m) (Fin n) ℝ} {t u : List XR} (h : mat A t = mat B u) : A = B := by
  ext i j
  exact mat_inj h i j

/-- C145, C120, negation: with `e` equal to the matrix the call stores a wrong decomposition (or none) for `A` or for `-A`, whatever `A`
other than zero. -/
theorem mtx_svd_over_e_wrong (fuel : ℕ) (junk : ℕ → XR) (mem : MMem XR) (p u v iter : ℕ) (A : Matrix (Fin m) (Fin n) ℝ) (t : List XR)
    (hm : 0 < m) (hn : 0 < n) (hA : A ≠ 0) :
    ∃ B, (B = A ∨ B = -A) ∧ ∀ (mem' : MMem XR) (U : Matrix (Fin m) (Fin m) ℝ) (E : Matrix (Fin m) (Fin n) ℝ) (V : Matrix (Fin n) (Fin n) ℝ)
      (tu te tv : List XR), mtxSvdMem fuel junk (Function.update mem p (mat B t)) p u p v iter = ok (0, mem') →
      mem' u = mat U tu → mem' p = mat E te → mem' v = mat V tv → B ≠ U * E * V.transpose := by
  by_contra hc
  push Not at hc
  obtain ⟨m1, U1, E1, V1, a1, b1, c1, h1, hu1, he1, hv1, r1⟩ := hc A (Or.inl rfl)
  obtain ⟨m2, U2, E2, V2, a2, b2, c2, h2, hu2, he2, hv2, r2⟩ := hc (-A) (Or.inr rfl)
  rw [← mtx_svd_over_e _ _ _ _ _ _ _ _ _ hm hn, h1] at h2
  obtain rfl := (Prod.mk.inj (ok.inj h2)).2
  obtain rfl := mat_injective (hu1.symm.trans hu2)
  obtain rfl := mat_injective (he1.symm.trans he2)
  obtain rfl := mat_injective (hv1.symm.trans hv2)
  refine hA ?_
  have : A = -A := r1.trans r2.symm
  ext i j
  have := congrFun (congrFun this i) j
  simp only [Matrix.neg_apply] at this
  simp only [Matrix.zero_apply]
  linarith

/-! ### Mode -/

/-- The mode for all pointers: the data are those that are in memory after the output has been cleared. -/
theorem staModeMem_eq (junk : ℕ → R) (mem : VMem R) (v w : ℕ) (c : Vec R) (hc : vecInit (mem w) = ok (0, c)) :
    staModeMem junk mem v w =
      (staMode junk (Function.update mem w c v) (mem w) >>= fun r => ok (r.1, Function.update mem w r.2)) := by
  have hcs : c.sz = (mem w).sz := by
    unfold vecInit at hc
    cases h : forN (mem w).sz (fun i d => wr d i (lit 0)) (mem w).data with
    | ub => simp [h] at hc
    | ok d =>
      simp only [h, ok_bind, pure_eq, ok.injEq, Prod.mk.injEq, true_and] at hc
      rw [← hc]
  have hs : (Function.update mem w c v).sz = (mem v).sz := by
    by_cases h : v = w
    · subst h
      rw [Function.update_self, hcs]
    · rw [Function.update_of_ne h]
  unfold staModeMem staMode
  rw [hs]
  by_cases h1 : (mem v).sz ≠ (mem w).sz
  · rw [if_pos h1, if_pos h1]
    simp
  rw [if_neg h1, if_neg h1]
  by_cases h2 : (mem v).sz = 0
  · rw [if_pos h2, if_pos h2]
    rfl
  rw [if_neg h2, if_neg h2]
  simp only [onObj, hc, ok_bind, pure_eq, bind_assoc', hs]
  congr 1; funext a
  congr 1; funext b
  have h3 := (forN_sim (n := b.2) (f := fun i (s : List R × Nat) => do
      let a ← rd b.1 i
      if CReal.ge a (lit 1e-5) || CReal.le a (lit 1e-5) then do
        let k ← vecContains ⟨c.sz, s.1⟩ a (lit 1e-5)
        if k = 0 then do
          let wd ← wr s.1 s.2 a
          ok (wd, s.2 + 1)
        else ok s
      else ok s) (g := fun i (s : VMem R × Nat) => do
      let a ← rd b.1 i
      if CReal.ge a (lit 1e-5) || CReal.le a (lit 1e-5) then do
        let k ← vecContains (s.1 w) a (lit 1e-5)
        if k = 0 then do
          let wd ← wr (s.1 w).data s.2 a
          ok (s.1.setData w wd, s.2 + 1)
        else ok s
      else ok s) (fun s => (VMem.setData (Function.update mem w c) w s.1, s.2)) (fun _ _ => True) (t := (c.data, 0)) trivial ?_).1
  · dsimp only at h3
    have h4 : VMem.setData (Function.update mem w c) w c.data = Function.update mem w c := by
      simp [VMem.setData]
    rw [h4] at h3
    rw [h3, bind_assoc']
    congr 1; funext d
    rw [ok_bind]
    congr 1; funext z
    simp [VMem.setData]
  · rintro i _ ⟨d, k⟩ -
    refine ⟨?_, fun _ _ => trivial⟩
    dsimp only
    rw [bind_assoc']
    congr 1; funext x
    split
    · rw [bind_assoc']
      simp only [VMem.setData_at, Function.update_self]
      congr 1; funext y
      split
      · simp only [VMem.setData_setData, bind_assoc', ok_bind]
      · rfl
    · rfl

/-- C145, C107. `zsl_sta_mode(v, w)` with two different vectors. -/
theorem sta_mode_separate (junk : ℕ → R) (mem : VMem R) (v w : ℕ) (h : v ≠ w) (hw : (mem w).WF) :
    staModeMem junk mem v w = (staMode junk (mem v) (mem w) >>= fun r => ok (r.1, Function.update mem w r.2)) := by
  rw [staModeMem_eq junk mem v w _ (vec_init_correct _ hw), Function.update_of_ne h]

/-- C145, C107, negation. In place the data are cleared before they are read: whatever the data, the call reports the single mode 0. -/
theorem sta_mode_in_place (junk : ℕ → XR) (mem : VMem XR) (v : ℕ) (x : Fin n → XR) (t : List XR) (hn : 1 ≤ n) (hv : mem v = vecOf x t) :
    staModeMem junk mem v v = ok (0, Function.update mem v ⟨1, List.replicate n (XR.fin 0) ++ t⟩) := by
  rw [staModeMem_eq junk mem v v _ (by rw [hv]; exact vecInit_vec x t), Function.update_self, hv]
  have hz : ∀ a ∈ List.ofFn (0 : Fin n → ℝ), a = 0 := by
    intro a ha
    obtain ⟨i, rfl⟩ := List.mem_ofFn.1 ha
    rfl
  obtain ⟨l, h1, h2, h3, h4, h5⟩ := sta_mode_partial junk (0 : Fin n → ℝ) x t t hn
    ⟨fun a ha b hb => Or.inl (by rw [hz a ha, hz b hb]), fun a ha => Or.inl (hz a ha)⟩
  have hl : l = [0] := by
    have hmem : ∀ a ∈ l, a = 0 := fun a ha => by
      obtain ⟨⟨i, hi⟩, -⟩ := (h5 a).1 ha
      exact hi.symm
    match l, h2, h4, hmem with
    | [a], _, _, hm => rw [hm a (by simp)]
    | a :: b :: l, _, h4, hm =>
      rw [hm a (by simp), hm b (by simp)] at h4
      simp at h4
  subst hl
  rw [h1, ok_bind]
  obtain ⟨k, rfl⟩ : ∃ k, n = k + 1 := ⟨n - 1, by omega⟩
  simp [List.replicate_succ]

/-! ### Covariance matrix -/

/-- C145, C44. `zsl_sta_covar_mtx(m, mc)` with two different matrices. -/
theorem sta_covar_mtx_separate (junk : ℕ → R) (mem : MMem R) (p q : ℕ) (h : p ≠ q) :
    staCovarMtxMem junk mem p q = (staCovarMtx junk (mem p) (mem q) >>= fun r => ok (r.1, Function.update mem q r.2)) := by
  unfold staCovarMtxMem staCovarMtx
  by_cases h1 : (mem q).rows ≠ (mem q).cols ∨ (mem q).cols ≠ (mem p).cols
  · rw [if_pos h1, if_pos h1]
    simp
  rw [if_neg h1, if_neg h1]
  by_cases h2 : (mem p).rows = 0
  · rw [if_pos h2, if_pos h2]
    rfl
  rw [if_neg h2, if_neg h2]
  have hp : ∀ d, mem.setData q d p = mem p := fun d => MMem.setData_ne _ _ h
  have h3 := (forN_sim (n := (mem p).cols) (f := fun i s =>
      forN (mem p).cols (fun j (s : List R × List R × List R) => do
        let (_, v1) ← mtxGetCol (mem p) i s.2.1
        let (_, v2) ← mtxGetCol (mem p) j s.2.2
        let (_, c) ← staCovar junk ⟨(mem p).rows, v1⟩ ⟨(mem p).rows, v2⟩ (junk 0)
        let d ← wr s.1 (i * (mem p).cols + j) c
        return (d, v1, v2)) s) (g := fun i s =>
      forN (mem p).cols (fun j (s : MMem R × List R × List R) => do
        let (_, v1) ← mtxGetCol (s.1 p) i s.2.1
        let (_, v2) ← mtxGetCol (s.1 p) j s.2.2
        let (_, c) ← staCovar junk ⟨(s.1 p).rows, v1⟩ ⟨(s.1 p).rows, v2⟩ (junk 0)
        let d ← wr (s.1 q).data (i * (s.1 p).cols + j) c
        return (s.1.setData q d, v1, v2)) s) (fun s => (mem.setData q s.1, s.2.1, s.2.2)) (fun _ _ => True)
      (t := ((mem q).data, junkArr junk (mem p).rows, junkArr junk (mem p).rows)) trivial ?_).1
  · dsimp only at h3
    rw [MMem.setData_self] at h3
    rw [h3]
    simp only [bind_assoc', ok_bind, pure_eq]
    rfl
  · intro i _ s _
    refine ⟨?_, fun _ _ => trivial⟩
    refine (forN_sim (rel := fun (s : List R × List R × List R) => (mem.setData q s.1, s.2.1, s.2.2)) (P := fun _ _ => True) trivial ?_).1
    rintro j _ ⟨d, v1, v2⟩ -
    refine ⟨?_, fun _ _ => trivial⟩
    simp only [hp, MMem.setData_at, MMem.setData_setData, bind_assoc', ok_bind, pure_eq]

/-- The covariance of columns `i` and `j` stored at `(i, j)` of the matrix itself. -/
noncomputable def covUpd (A : Matrix (Fin n) (Fin n) ℝ) (i j : Fin n) : Matrix (Fin n) (Fin n) ℝ :=
  Matrix.of fun a b => if a = i ∧ b = j then covOf (fun k => A k i) (fun k => A k j) else A a b

/-- One element of the covariance matrix computed in place. -/
theorem covarStep (junk : ℕ → XR) (mem : MMem XR) (p : ℕ) (A : Matrix (Fin n) (Fin n) ℝ) (t : List XR) (y1 y2 : Fin n → XR) (hn : 2 ≤ n)
    (i j : Fin n) :
    ∃ z1 z2 : Fin n → XR, (do
        let (_, v1) ← mtxGetCol (Function.update mem p (mat A t) p) i (arrOf y1 [])
        let (_, v2) ← mtxGetCol (Function.update mem p (mat A t) p) j (arrOf y2 [])
        let (_, c) ← staCovar junk ⟨(Function.update mem p (mat A t) p).rows, v1⟩ ⟨(Function.update mem p (mat A t) p).rows, v2⟩ (junk 0)
        let d ← wr (Function.update mem p (mat A t) p).data (i * (Function.update mem p (mat A t) p).cols + j) c
        return (MMem.setData (Function.update mem p (mat A t)) p d, v1, v2)) =
      ok (Function.update mem p (mat (covUpd A i j) t),
        arrOf z1 [], arrOf z2 []) := by
  refine ⟨fun k => XR.fin (A k i), fun k => XR.fin (A k j), ?_⟩
  simp only [Function.update_self]
  rw [mat_getCol A t y1 [] i, ok_bind]
  dsimp only
  rw [mat_getCol A t y2 [] j, ok_bind]
  dsimp only
  have := sta_covar_correct junk (fun k => A k i) (fun k => A k j) [] [] (junk 0) hn
  unfold vec at this
  simp only [mat_rows, mat_cols]
  rw [this, ok_bind]
  dsimp only
  have hd : (mat A t).data = mkD n n (ext (A.map XR.fin)) t := by
    unfold mat
    rw [mtxOf_eq]
    rfl
  rw [hd, mkD_wr _ _ _ i.2 j.2, ok_bind, pure_eq]
  have hm : (⟨n, n, mkD n n (upd (ext (A.map XR.fin)) i j (XR.fin (covOf (fun k => A k i) (fun k => A k j)))) t⟩ : Mtx XR) =
      mat (covUpd A i j) t := by
    have h1 := mat_set A t (covOf (fun k => A k i) (fun k => A k j)) i j
    have h2 : mtxSet (mat A t) i j (XR.fin (covOf (fun k => A k i) (fun k => A k j))) =
        ok (0, mkM n n (upd (ext (A.map XR.fin)) i j (XR.fin (covOf (fun k => A k i) (fun k => A k j)))) t) := by
      unfold mat
      rw [mtxOf_eq, mkM_set _ _ _ i.2 j.2]
    rw [h2] at h1
    exact (Prod.mk.inj (ok.inj h1)).2
  simp only [MMem.setData, Function.update_self, Function.update_idem]
  rw [← hm]
  rfl

/-- C145, C44. In place the covariance matrix of a 2x2 matrix: the columns are read again after their first elements have been overwritten. -/
theorem sta_covar_mtx_in_place (junk : ℕ → XR) (mem : MMem XR) (p : ℕ) (a b c d : ℝ) (t : List XR) (hp : mem p = mat !![a, b; c, d] t) :
    ∃ B : Matrix (Fin 2) (Fin 2) ℝ, staCovarMtxMem junk mem p p = ok (0, Function.update mem p (mat B t)) ∧
      B 0 0 = covOf ![a, c] ![a, c] ∧ B 0 1 = covOf ![B 0 0, c] ![b, d] := by
  unfold staCovarMtxMem
  have hp' : mem = Function.update mem p (mat !![a, b; c, d] t) := by rw [← hp, Function.update_eq_self]
  rw [hp]
  rw [if_neg (by simp), if_neg (by simp)]
  simp only [mat_rows, mat_cols]
  rw [junkArr_eq junk 2]
  let F : ℕ → ℕ → MMem XR × List XR × List XR → Out (MMem XR × List XR × List XR) := fun i j s => do
    let (_, v1) ← mtxGetCol (s.1 p) i s.2.1
    let (_, v2) ← mtxGetCol (s.1 p) j s.2.2
    let (_, c) ← staCovar junk ⟨(s.1 p).rows, v1⟩ ⟨(s.1 p).rows, v2⟩ (junk 0)
    let d ← wr (s.1 p).data (i * (s.1 p).cols + j) c
    return (s.1.setData p d, v1, v2)
  have step : ∀ (A : Matrix (Fin 2) (Fin 2) ℝ) (y1 y2 : Fin 2 → XR) (i j : Fin 2), ∃ z1 z2 : Fin 2 → XR,
      F i j (Function.update mem p (mat A t), arrOf y1 [], arrOf y2 []) =
      ok (Function.update mem p (mat (covUpd A i j) t),
        arrOf z1 [], arrOf z2 []) := fun A y1 y2 i j => covarStep junk mem p A t y1 y2 le_rfl i j
  have hF : ∀ s, forN 2 (fun i s => forN 2 (fun j s => F i j s) s) s = (F 0 0 s >>= F 0 1 >>= fun s => F 1 0 s >>= F 1 1) := fun s => rfl
  obtain ⟨z1, z2, h1⟩ := step !![a, b; c, d] (fun i => junk i) (fun i => junk i) 0 0
  obtain ⟨z3, z4, h2⟩ := step (covUpd !![a, b; c, d] 0 0) z1 z2 0 1
  obtain ⟨z5, z6, h3⟩ := step (covUpd (covUpd !![a, b; c, d] 0 0) 0 1) z3 z4 1 0
  obtain ⟨z7, z8, h4⟩ := step (covUpd (covUpd (covUpd !![a, b; c, d] 0 0) 0 1) 1 0) z5 z6 1 1
  refine ⟨covUpd (covUpd (covUpd (covUpd !![a, b; c, d] 0 0) 0 1) 1 0) 1 1, ?_, ?_, ?_⟩
  · have hs := hF (mem, arrOf (fun i : Fin 2 => junk i) [], arrOf (fun i : Fin 2 => junk i) [])
    refine Eq.trans (congrArg (fun x => x >>= _) hs) ?_
    have hp' : mem = Function.update mem p (mat !![a, b; c, d] t) := by rw [← hp, Function.update_eq_self]
    simp only [Fin.val_zero, Fin.val_one] at h1 h2 h3 h4
    rw [← hp'] at h1
    rw [h1, ok_bind, h2, ok_bind, h3, ok_bind, h4, ok_bind]
    rfl
  · simp [covUpd, covOf, meanOf, Fin.sum_univ_two]
  · simp [covUpd, covOf, meanOf, Fin.sum_univ_two]

/-- C145, C44, negation: the covariance matrix computed in place is wrong. The columns of (0, 0; 2, 2) are equal, and every element should
be 2. -/
theorem sta_covar_mtx_in_place_wrong : ∃ A : Matrix (Fin 2) (Fin 2) ℝ, ∀ (junk : ℕ → XR) (mem : MMem XR) (p : ℕ) (t : List XR),
    mem p = mat A t → ∃ B : Matrix (Fin 2) (Fin 2) ℝ, staCovarMtxMem junk mem p p = ok (0, Function.update mem p (mat B t)) ∧
      B 0 1 = 0 ∧ covOf (fun k => A k 0) (fun k => A k 1) = 2 := by
  refine ⟨!![0, 0; 2, 2], fun junk mem p t hp => ?_⟩
  obtain ⟨B, h1, h2, h3⟩ := sta_covar_mtx_in_place junk mem p 0 0 2 2 t hp
  refine ⟨B, h1, ?_, ?_⟩
  · rw [h3, h2]
    simp [covOf, meanOf, Fin.sum_univ_two]
    norm_num
  · simp [covOf, meanOf, Fin.sum_univ_two]
    norm_num

/-- Non-vacuity: the mode of (3, 3, 5) computed in place is reported as 0. -/
example (junk : ℕ → XR) (mem : VMem XR) (h : mem 4 = vec ![3, 3, 5] []) :
    staModeMem junk mem 4 4 = ok (0, Function.update mem 4 ⟨1, [XR.fin 0, XR.fin 0, XR.fin 0]⟩) :=
  sta_mode_in_place junk mem 4 (fun i => XR.fin (![3, 3, 5] i)) [] (by norm_num) h

end Verif
