import Verif.Props.Alias1
import Verif.Props.Sort
import Verif.Props.Stat1

/-!
# C145: sorting, removing the mean and quaternions with shared storage
-/

set_option linter.unusedSectionVars false

namespace Verif

open Out

variable {R : Type} [CReal R]

/-! ## Sorting -/

theorem vecContains_le (v : Vec R) (a eps : R) (c : ℕ) (h : vecContains v a eps = ok c) : c ≤ v.sz := by
  unfold vecContains at h
  have key : ∀ n c, forN n (fun i count => do
      let a' ← rd v.data i
      let c := a' - a
      return (if CReal.lt c eps && CReal.lt (-c) eps then count + 1 else count)) 0 = ok c → c ≤ n := by
    intro n
    induction n with
    | zero =>
      intro c hc
      cases hc
      exact le_rfl
    | succ n ih =>
      intro c hc
      rw [forN_succ] at hc
      cases hf : forN n (fun i count => do
        let a' ← rd v.data i
        let c := a' - a
        return (if CReal.lt c eps && CReal.lt (-c) eps then count + 1 else count)) 0 with
      | ub => rw [hf] at hc; cases hc
      | ok c0 =>
        rw [hf] at hc
        simp only [ok_bind] at hc
        have := ih c0 hf
        cases hr : rd v.data n with
        | ub => rw [hr] at hc; cases hc
        | ok a' =>
          rw [hr] at hc
          simp only [ok_bind, pure_eq, Out.ok.injEq] at hc
          rw [← hc]
          by_cases hb : (CReal.lt (a' - a) eps && CReal.lt (-(a' - a)) eps) = true
          · rw [if_pos hb]; omega
          · rw [if_neg hb]; omega
  exact key v.sz c h

/-- A loop whose body does not use the counter may start with the first step. -/
theorem forN_const_succ {σ : Type} (n : ℕ) (f : σ → Out σ) (s : σ) :
    forN (n + 1) (fun _ => f) s = (f s >>= forN n (fun _ => f)) := by
  induction n with
  | zero =>
    rw [forN_succ]
    simp only [forN_zero, ok_bind]
    cases f s <;> rfl
  | succ n ih =>
    rw [forN_succ, ih]
    cases f s with
    | ub => rfl
    | ok t => simp only [ok_bind, forN_succ]

theorem sortPutMem_eq (fuel v w : ℕ) (a : R) (k : ℕ) (mem : VMem R) (d : List R) (count2 c : ℕ) (hvw : v ≠ w)
    (hc : vecContains (mem v) a (lit 1e-5) = ok c) (hk : k ≤ c) (hfuel : c - k < fuel) :
    sortPutMem fuel v w a k (mem.setData w d) count2 =
      (forN (c - k) (fun _ (s : List R × ℕ) => do
        let (wd, count2) := s
        let wd ← wr wd count2 a
        return (wd, count2 + 1)) (d, count2) >>= fun s => ok (mem.setData w s.1, s.2)) := by
  induction fuel generalizing k d count2 with
  | zero => omega
  | succ fuel ih =>
    rw [sortPutMem, VMem.setData_ne _ _ hvw, hc, ok_bind]
    by_cases h : k < c
    · obtain ⟨m, hm⟩ : ∃ m, c - k = m + 1 := ⟨c - k - 1, by omega⟩
      rw [if_pos h, hm, forN_const_succ, VMem.setData_at]
      cases hw : wr d count2 a with
      | ub => simp only [hw, ub_bind]
      | ok d' =>
        simp only [hw, ok_bind, VMem.setData_setData, pure_eq]
        rw [ih (k + 1) d' (count2 + 1) (by omega) (by omega), show c - (k + 1) = m by omega]
        rfl
    · rw [if_neg h, show c - k = 0 by omega]
      rfl

/-- C145, C12. `zsl_vec_sort(v, w)` with two different vectors: counting the repetitions anew in every step, as the code does, gives
what counting them once gives. -/
theorem vec_sort_separate (fuel : ℕ) (extra : List R) (mem : VMem R) (v w : ℕ) (hvw : v ≠ w) :
    vecSortMem fuel extra mem v w = (vecSort fuel extra (mem v) (mem w) >>= fun r => ok (r.1, Function.update mem w r.2)) := by
  unfold vecSortMem vecSort
  dsimp only
  cases sortDedup (mem v) ⟨(mem v).sz, List.replicate (mem v).sz (lit 0) ++ extra⟩ with
  | ub => rfl
  | ok p =>
    simp only [ok_bind]
    cases vecContains (mem v) (lit 0) (lit 1e-5) with
    | ub => rfl
    | ok z =>
      simp only [ok_bind]
      cases vecQuicksort fuel p.1 0 (szSub (if z > 0 then p.2 + 1 else p.2) 1) with
      | ub => rfl
      | ok ud =>
        simp only [ok_bind]
        generalize (if z > 0 then p.2 + 1 else p.2) = count
        have := (forN_sim (n := count) (f := fun i (s : List R × ℕ) => do
            let a ← rd ud i
            let c ← vecContains (mem v) a (lit 1e-5)
            forN c (fun _ (s : List R × ℕ) => do
              let (wd, count2) := s
              let wd ← wr wd count2 a
              return (wd, count2 + 1)) s) (g := fun i (s : VMem R × ℕ) => do
            let a ← rd ud i
            sortPutMem ((mem v).sz + 1) v w a 0 s.1 s.2) (fun s => (mem.setData w s.1, s.2)) (fun _ _ => True)
            (t := ((mem w).data, 0)) trivial ?_).1
        · rw [VMem.setData_self] at this
          rw [this]
          cases forN count _ ((mem w).data, 0) with
          | ub => rfl
          | ok s => rfl
        · rintro i _ ⟨d, c2⟩ -
          refine ⟨?_, fun _ _ => trivial⟩
          cases rd ud i with
          | ub => rfl
          | ok a =>
            simp only [ok_bind]
            cases hc : vecContains (mem v) a (lit 1e-5) with
            | ub =>
              rw [sortPutMem, VMem.setData_ne _ _ hvw, hc]
              rfl
            | ok c =>
              have hle := vecContains_le _ _ _ _ hc
              rw [sortPutMem_eq _ v w a 0 mem d c2 c hvw hc (Nat.zero_le _) (by omega)]
              simp only [ok_bind, Nat.sub_zero]

/-- C145, limit of the property: sorting a vector into itself loses elements. `zsl_vec_sort(v, v)` on (2, 2, 1) stores (1, 1, 1) and
reports success. -/
theorem vec_sort_in_place_wrong (fuel : ℕ) (hfuel : 4 ≤ fuel) (mem : VMem XR) (v : ℕ)
    (hv : mem v = ⟨3, [2, 2, 1].map XR.fin⟩) :
    vecSortMem fuel [] mem v v = ok (0, Function.update mem v ⟨3, [1, 1, 1].map XR.fin⟩) := by
  have hr : sortReps [2, 2, 1] = [2, 1] := by
    simp only [sortReps, List.foldl]
    norm_num [abs_of_pos]
  have hd := sortDedup_eq [2, 2, 1] [] []
  rw [hr] at hd
  have h0 := vecContains_list [2, 2, 1] [] 3 rfl 0
  have hc : ([2, 2, 1] : List ℝ).countP (fun b => decide (|b - 0| < 1e-5)) = 0 := by
    rw [List.countP_eq_zero]
    norm_num [abs_of_pos]
  rw [hc] at h0
  have hl0 : (lit 0 : XR) = XR.fin 0 := by rw [XR.lit_eq]; simp
  obtain ⟨ud, hud, hget⟩ := quicksort_list [2, 1] [lit 0] fuel (by simp) (by simp) (by rw [SIZE_MOD_eq]; simp) (by norm_num)
    (by simpa using hfuel)
  have hs : ([2, 1] : List ℝ).insertionSort (· ≤ ·) = [1, 2] := by
    norm_num [List.insertionSort, List.orderedInsert]
  have g0 : ud[0]? = some (XR.fin 1) := by
    have := hget 0 (by rw [hs]; simp)
    simpa [hs] using this
  have g1 : ud[1]? = some (XR.fin 2) := by
    have := hget 1 (by rw [hs]; simp)
    simpa [hs] using this
  simp only [List.length_cons, List.length_nil, List.append_nil, Nat.zero_add, Nat.reduceAdd, Nat.reduceSub, List.replicate_one] at hd h0 hud
  unfold vecSortMem
  dsimp only
  rw [hv]
  simp only [List.append_nil]
  rw [hd, ok_bind]
  dsimp only
  rw [hl0, h0, ok_bind, if_neg (by omega), show szSub 2 1 = 1 from szSub_le (by omega), ← hl0, hud, ok_bind]
  have c1 : ∀ (l : List ℝ) (a : ℝ), l.length = 3 → vecContains ⟨3, l.map XR.fin⟩ (XR.fin a) (lit 1e-5) =
      ok (l.countP fun b => decide (|b - a| < 1e-5)) := by
    intro l a hl
    have := vecContains_list l [] 3 hl a
    rwa [List.append_nil] at this
  have n1 : ([2, 2, 1] : List ℝ).countP (fun b => decide (|b - 1| < 1e-5)) = 1 := by
    norm_num [List.countP_cons, abs_of_pos]
  have n2 : ([1, 2, 1] : List ℝ).countP (fun b => decide (|b - 1| < 1e-5)) = 2 := by
    norm_num [List.countP_cons, abs_of_pos]
  have n3 : ([1, 1, 1] : List ℝ).countP (fun b => decide (|b - 1| < 1e-5)) = 3 := by
    norm_num [List.countP_cons, abs_of_pos]
  have n4 : ([1, 1, 1] : List ℝ).countP (fun b => decide (|b - 2| < 1e-5)) = 0 := by
    norm_num [List.countP_cons, abs_of_pos]
  have e1 := c1 [2, 2, 1] 1 rfl
  have e2 := c1 [1, 2, 1] 1 rfl
  have e3 := c1 [1, 1, 1] 1 rfl
  have e4 := c1 [1, 1, 1] 2 rfl
  rw [n1] at e1
  rw [n2] at e2
  rw [n3] at e3
  rw [n4] at e4
  simp only [List.map_cons, List.map_nil] at e1 e2 e3 e4 hv
  rw [forN_succ, forN_succ, forN_zero]
  simp only [ok_bind, rd_of g0, rd_of g1]
  have at3 : ∀ L, mem.setData v L v = ⟨3, L⟩ := by
    intro L
    rw [VMem.setData_at, hv]
  have s1 : sortPutMem 4 v v (XR.fin 1) 0 mem 0 = ok (mem.setData v [XR.fin 1, XR.fin 1, XR.fin 1], 3) := by
    rw [sortPutMem, hv, e1, ok_bind, if_pos (by omega), wr_lt _ (by simp), ok_bind, List.set_cons_zero]
    rw [sortPutMem, at3, e2, ok_bind, if_pos (by omega), wr_lt _ (by simp), ok_bind, List.set_cons_succ, List.set_cons_zero,
      VMem.setData_setData]
    rw [sortPutMem, at3, e3, ok_bind, if_pos (by omega), wr_lt _ (by simp), ok_bind, List.set_cons_succ, List.set_cons_succ,
      List.set_cons_zero, VMem.setData_setData]
    rw [sortPutMem, at3, e3, ok_bind, if_neg (by omega)]
    rfl
  have s2 : sortPutMem 4 v v (XR.fin 2) 0 (mem.setData v [XR.fin 1, XR.fin 1, XR.fin 1]) 3 =
      ok (mem.setData v [XR.fin 1, XR.fin 1, XR.fin 1], 3) := by
    rw [sortPutMem, at3, e4, ok_bind, if_neg (by omega)]
    rfl
  rw [s1, ok_bind, s2, ok_bind]
  simp [VMem.setData, hv]

/-! ## Removing the mean -/

/-- C145, C43. `zsl_sta_demean(v, w)` for all pointers, equal or not: the output receives the deviations of the values `v` had at the call from
their mean. -/
theorem sta_demean_aliasing (m0 : R) (mem : VMem R) (v w : ℕ) (hv : (mem v).WF) (hw : (mem w).WF) :
    staDemeanMem m0 mem v w = (staDemean m0 (mem v) (mem w) >>= fun r => ok (r.1, Function.update mem w r.2)) := by
  unfold staDemeanMem staDemean
  by_cases h : (mem v).sz ≠ (mem w).sz
  · rw [if_pos h, if_pos h]
    simp
  · rw [if_neg h, if_neg h, vecCopyMem_eq]
    rw [not_not] at h
    have hc : ∃ y : Vec R, vecCopy (mem w) (mem v) = ok (0, y) ∧ (v = w → y = mem v) := by
      refine ⟨_, vec_copy_correct _ _ hv (by rw [h]; exact hw), ?_⟩
      rintro rfl
      simp [Vec.vals]
    obtain ⟨y, hy, hyv⟩ := hc
    have hvv : Function.update mem w y v = mem v := by
      by_cases hvw : v = w
      · subst hvw
        rw [hyv rfl, Function.update_eq_self]
      · rw [Function.update_of_ne hvw]
    simp only [hy, ok_bind, hvv, onObj, Function.update_self, bind_assoc', Function.update_idem, pure_eq]

/-! ## Quaternions -/

/-- C145, C57. `zsl_quat_conj`, for all pointers. -/
theorem quat_conj_aliasing (mem : QMem R) (q qc : ℕ) : quatConjMem mem q qc = Function.update mem qc (quatConj (mem q)) := by
  by_cases h : q = qc
  · subst h
    simp [quatConjMem, QMem.setI, QMem.setJ, QMem.setK, QMem.setR, quatConj]
  · simp [quatConjMem, QMem.setI, QMem.setJ, QMem.setK, QMem.setR, quatConj, h]

theorem QMem.put_eq (mem : QMem R) (p : ℕ) (r i j k : R) : mem.put p r i j k = Function.update mem p ⟨r, i, j, k⟩ := by
  simp [QMem.put, QMem.setI, QMem.setJ, QMem.setK, QMem.setR]

/-- C145. `zsl_quat_exp`, for all pointers. -/
theorem quat_exp_aliasing (mem : QMem R) (q qe : ℕ) :
    quatExpMem mem q qe = (quatExp (mem q) >>= fun y => ok (Function.update mem qe y)) := by
  simp only [quatExpMem, quatExp, QMem.setI, QMem.setJ, QMem.setK, QMem.setR, Function.update_idem, Function.update_self, bind_assoc',
    pure_eq, ok_bind]

/-- C145. `zsl_quat_log`, for all pointers. -/
theorem quat_log_aliasing (mem : QMem R) (q ql : ℕ) :
    quatLogMem mem q ql = (quatLog (mem q) >>= fun y => ok (Function.update mem ql y)) := by
  simp only [quatLogMem, quatLog, QMem.setI, QMem.setJ, QMem.setK, QMem.setR, Function.update_idem, Function.update_self, bind_assoc',
    pure_eq, ok_bind]

/-- C145, C57. `zsl_quat_diff`, for all pointers. -/
theorem quat_diff_aliasing (mem : QMem R) (qa qb qd : ℕ) :
    quatDiffMem mem qa qb qd = Function.update mem qd (quatDiff (mem qa) (mem qb)) := by
  simp only [quatDiffMem, quatDiff, QMem.setI, QMem.setJ, QMem.setK, QMem.setR, Function.update_idem, Function.update_self, quatMult]

/-- C145. `zsl_quat_rot`, for all pointers; on error nothing changes. -/
theorem quat_rot_aliasing (mem : QMem R) (qa qb qr : ℕ) :
    quatRotMem mem qa qb qr =
      ((quatRot (mem qa) (mem qb) (mem qr)).1, Function.update mem qr (quatRot (mem qa) (mem qb) (mem qr)).2) := by
  unfold quatRotMem quatRot
  by_cases h : CReal.gt (CReal.abs (mem qb).r) (lit 1e-6) = true
  · rw [if_pos h, if_pos h]
    simp
  · rw [if_neg h, if_neg h]
    simp only [QMem.setI, QMem.setJ, QMem.setK, QMem.setR, Function.update_idem, Function.update_self]
    rfl

/-- C145. `zsl_quat_lerp`, for all pointers; on error nothing changes. -/
theorem quat_lerp_aliasing (mem : QMem R) (qa qb : ℕ) (t : R) (qi : ℕ) :
    quatLerpMem mem qa qb t qi =
      ((quatLerp (mem qa) (mem qb) t (mem qi)).1, Function.update mem qi (quatLerp (mem qa) (mem qb) t (mem qi)).2) := by
  unfold quatLerpMem quatLerp
  by_cases h : (CReal.lt t (lit 0) || CReal.gt t (lit 1)) = true
  · rw [if_pos h, if_pos h]
    simp
  · rw [if_neg h, if_neg h]
    simp only [QMem.put_eq, quat_to_unit_aliasing, Function.update_idem, Function.update_self]
    rfl

/-- C145. `zsl_quat_slerp`, for all pointers; on error nothing changes. -/
theorem quat_slerp_aliasing (mem : QMem R) (qa qb : ℕ) (t : R) (qi : ℕ) :
    quatSlerpMem mem qa qb t qi =
      ((quatSlerp (mem qa) (mem qb) t (mem qi)).1, Function.update mem qi (quatSlerp (mem qa) (mem qb) t (mem qi)).2) := by
  unfold quatSlerpMem quatSlerp
  simp only [QMem.put_eq]
  by_cases h : (CReal.lt t (lit 0) || CReal.gt t (lit 1)) = true
  · rw [if_pos h, if_pos h]
    simp
  · rw [if_neg h, if_neg h]
    by_cases h0 : CReal.eq t (lit 0) = true
    · rw [if_pos h0, if_pos h0]
    · rw [if_neg h0, if_neg h0]
      by_cases h1 : CReal.eq t (lit 1) = true
      · rw [if_pos h1, if_pos h1]
      · rw [if_neg h1, if_neg h1]
        generalize (quatToUnit (mem qa)).r * (quatToUnit (mem qb)).r + (quatToUnit (mem qa)).i * (quatToUnit (mem qb)).i +
          (quatToUnit (mem qa)).j * (quatToUnit (mem qb)).j + (quatToUnit (mem qa)).k * (quatToUnit (mem qb)).k = dot
        by_cases h2 : CReal.lt (CReal.abs (dot - lit 1)) (lit 1e-6) = true
        · rw [if_pos h2, if_pos h2]
        · rw [if_neg h2, if_neg h2]
          by_cases h3 : CReal.lt (CReal.abs (dot + lit 1)) (lit 1e-6) = true
          · rw [if_pos h3, if_pos h3]
            simp
          · rw [if_neg h3, if_neg h3]
            rfl

/-- C145. `zsl_quat_from_ang_vel`, for all pointers to the orientations; on error nothing changes. -/
theorem quat_from_ang_vel_aliasing (mem : QMem R) (w : Vec R) (qin : ℕ) (t : R) (qout : ℕ) :
    quatFromAngVelMem mem w qin t qout =
      (quatFromAngVel w (mem qin) t (mem qout) >>= fun r => ok (r.1, Function.update mem qout r.2)) := by
  unfold quatFromAngVelMem quatFromAngVel
  by_cases h : w.sz ≠ 3 ∨ CReal.lt t (lit 0) = true
  · rw [if_pos h, if_pos h]
    simp
  · rw [if_neg h, if_neg h]
    simp only [QMem.put_eq, bind_assoc', pure_eq, ok_bind]

/-- Non-vacuity: an interpolation stored over its first argument. -/
example (mem : QMem R) (t : R) : (quatLerpMem mem 3 4 t 3).2 = Function.update mem 3 (quatLerp (mem 3) (mem 4) t (mem 3)).2 := by
  rw [quat_lerp_aliasing]

end Verif
