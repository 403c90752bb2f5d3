import Verif.Lemmas.Alias
import Verif.Props.Vectors2
import Verif.Props.Quat1

/-!
# C03, C145: vectors and quaternions whose storage is shared

`mem` is any memory, pointers are any numbers, equal or not. `Function.update mem x y` is the memory in which only the object at `x` has
changed, to `y`.
-/

set_option linter.unusedSectionVars false

namespace Verif

open Out

variable {R : Type} [CReal R]

/-! ## Sum and difference of vectors -/

/-- C03. `zsl_vec_add(v, w, x)`, for every memory, whichever of the three pointers are equal, for every scalar type and also when the
buffers are too short: the call does what it does on three separate objects with the contents at the call, and nothing but `x`
changes. -/
theorem vec_add_aliasing (mem : VMem R) (v w x : ℕ) :
    vecAddMem mem v w x = (vecAdd (mem v) (mem w) (mem x) >>= fun r => ok (r.1, Function.update mem x r.2)) := by
  unfold vecAddMem vecAdd
  by_cases h : (mem v).sz ≠ (mem w).sz ∨ (mem v).sz ≠ (mem x).sz
  · rw [if_pos h, if_pos h]
    simp
  · rw [if_neg h, if_neg h, cellsMem_eq]
    simp only [bind_assoc', ok_bind, pure_eq]
    rfl

/-- C03. The same for `zsl_vec_sub(v, w, x)`. -/
theorem vec_sub_aliasing (mem : VMem R) (v w x : ℕ) :
    vecSubMem mem v w x = (vecSub (mem v) (mem w) (mem x) >>= fun r => ok (r.1, Function.update mem x r.2)) := by
  unfold vecSubMem vecSub
  by_cases h : (mem v).sz ≠ (mem w).sz ∨ (mem v).sz ≠ (mem x).sz
  · rw [if_pos h, if_pos h]
    simp
  · rw [if_neg h, if_neg h, cellsMem_eq]
    simp only [bind_assoc', ok_bind, pure_eq]
    rfl

/-- C03. In terms of the elements: the output receives the element-wise sum, and the difference, of the elements the two inputs had at
the call, cells behind its size keep their contents, and no other object changes. -/
theorem vec_add_sub_any_pointers (mem : VMem R) (v w x : ℕ) (hv : (mem v).WF) (hw : (mem w).WF) (hx : (mem x).WF)
    (h : (mem v).sz = (mem w).sz ∧ (mem v).sz = (mem x).sz) :
    vecAddMem mem v w x = ok (0, Function.update mem x
      ⟨(mem x).sz, List.zipWith (· + ·) (mem v).vals (mem w).vals ++ (mem x).data.drop (mem x).sz⟩) ∧
    vecSubMem mem v w x = ok (0, Function.update mem x
      ⟨(mem x).sz, List.zipWith (· - ·) (mem v).vals (mem w).vals ++ (mem x).data.drop (mem x).sz⟩) := by
  constructor
  · rw [vec_add_aliasing, vec_add_correct _ _ _ hv hw hx, if_pos h]
    rfl
  · rw [vec_sub_aliasing, vec_sub_correct _ _ _ hv hw hx, if_pos h]
    rfl

/-- C03. Doubling and clearing: `zsl_vec_add(v, v, v)` and `zsl_vec_sub(v, v, v)` on a real vector. -/
theorem vec_add_sub_self {n : ℕ} (mem : VMem XR) (v : ℕ) (a : Fin n → ℝ) (hv : (mem v).Is a) :
    (∃ y, vecAddMem mem v v v = ok (0, Function.update mem v y) ∧ y.Is (a + a)) ∧
    ∃ y, vecSubMem mem v v v = ok (0, Function.update mem v y) ∧ y.Is (0 : Fin n → ℝ) := by
  obtain ⟨h1, h2⟩ := vec_add_sub_any_pointers mem v v v hv.wf hv.wf hv.wf ⟨rfl, rfl⟩
  have hwf := hv.wf
  unfold Vec.WF at hwf
  have hz : ∀ (op : XR → XR → XR) (b : Fin n → ℝ), (∀ i, op (XR.fin (a i)) (XR.fin (a i)) = XR.fin (b i)) →
      (⟨(mem v).sz, List.zipWith op (mem v).vals (mem v).vals ++ (mem v).data.drop (mem v).sz⟩ : Vec XR).Is b := by
    intro op b hb
    refine ⟨hv.1, fun i => ?_⟩
    have hi : i.val < (mem v).sz := by rw [hv.1]; exact i.2
    have hc := hv.2 i
    simp only
    rw [List.getElem?_append_left (by simp [Vec.vals]; omega), List.getElem?_zipWith]
    simp only [Vec.vals, List.getElem?_take, hi, if_true, hc, hb i]
  refine ⟨⟨_, h1, hz _ _ fun i => ?_⟩, ⟨_, h2, hz _ _ fun i => ?_⟩⟩
  · simp
  · simp

example : ∃ y, vecAddMem (fun _ => (⟨2, [XR.fin 1, XR.fin 2]⟩ : Vec XR)) 5 5 5 = ok (0, Function.update (fun _ => (⟨2, [XR.fin 1, XR.fin 2]⟩ : Vec XR)) 5 y) ∧ y.Is ![2, 4] := by
  have h : (⟨2, [XR.fin 1, XR.fin 2]⟩ : Vec XR).Is ![1, 2] := ⟨rfl, by intro i; fin_cases i <;> rfl⟩
  obtain ⟨⟨y, h1, h2⟩, -⟩ := vec_add_sub_self (fun _ => (⟨2, [XR.fin 1, XR.fin 2]⟩ : Vec XR)) 5 ![1, 2] h
  refine ⟨y, h1, ?_⟩
  convert h2 using 1
  ext i
  fin_cases i <;> norm_num

/-! ## Projection -/

/-- C145. `zsl_vec_project(u, v, w)` with an output that is neither input. -/
theorem vec_project_separate (mem : VMem R) (u v w : ℕ) (hu : w ≠ u) (hv : w ≠ v) :
    vecProjectMem mem u v w = (vecProject (mem u) (mem v) (mem w) >>= fun r => ok (r.1, Function.update mem w r.2)) := by
  unfold vecProjectMem vecProject
  by_cases h : (mem v).sz ≠ (mem w).sz ∨ (mem v).sz ≠ (mem u).sz
  · rw [if_pos h, if_pos h]
    simp
  · rw [if_neg h, if_neg h, vecCopyMem_eq]
    cases vecCopy (mem w) (mem u) with
    | ub => rfl
    | ok c =>
      simp only [ok_bind, onObj, Function.update_of_ne hu.symm, Function.update_of_ne hv.symm, Function.update_self, bind_assoc']
      cases vecDot (mem v) (mem u) (lit 0) with
      | ub => rfl
      | ok p =>
        simp only [ok_bind]
        cases vecDot (mem u) (mem u) (lit 0) with
        | ub => rfl
        | ok t =>
          simp only [ok_bind]
          cases vecScalarMult c.2 (p.2 / t.2) with
          | ub => rfl
          | ok y => simp

/-- Copying a vector onto itself changes nothing. -/
theorem vecCopy_same (v : Vec R) (hv : v.WF) : vecCopy v v = ok (0, v) := by
  rw [vec_copy_correct _ _ hv hv]
  simp [Vec.vals]

/-- C145. `zsl_vec_project(u, v, u)`: the output may be the vector projected onto. On real vectors, for any pointers `u`, `v` (equal or
not), `u ≠ 0`: the stored vector is the projection of what `v` was onto what `u` was. -/
theorem vec_project_onto_in_place {n : ℕ} (mem : VMem XR) (u v : ℕ) (x y : Fin n → ℝ) (hu : (mem u).Is x) (hv : (mem v).Is y)
    (hx : x ≠ 0) :
    ∃ u', vecProjectMem mem u v u = ok (0, Function.update mem u u') ∧ u'.Is (((y ⬝ᵥ x) / (x ⬝ᵥ x)) • x) := by
  obtain ⟨u', h1, h2⟩ := vec_project_in_place (mem u) (mem v) x y hu hv hx
  refine ⟨u', ?_, h2⟩
  unfold vecProjectOnto at h1
  unfold vecProjectMem
  rw [if_neg (by rw [hv.1, hu.1]; simp)] at h1 ⊢
  rw [vecCopyMem_eq, vecCopy_same _ hu.wf]
  simp only [ok_bind, Function.update_eq_self, onObj, bind_assoc', pure_eq] at h1 ⊢
  simp only [vec_dot_correct _ _ y x _ hv hu, vec_dot_correct _ _ x x _ hu hu, ok_bind] at h1 ⊢
  cases hs : vecScalarMult (mem u) (XR.fin (y ⬝ᵥ x) / XR.fin (x ⬝ᵥ x)) with
  | ub => rw [hs] at h1; cases h1
  | ok r =>
    rw [hs] at h1
    simp only [ok_bind] at h1 ⊢
    cases h1
    rfl

/-- C145, limit of the property. `zsl_vec_project(u, v, v)`: with the output being the vector to project, the copy of `u` overwrites that
vector before it is read, and what is stored is `u` itself, for all real vectors, `u ≠ 0`. -/
theorem vec_project_over_v {n : ℕ} (mem : VMem XR) (u v : ℕ) (huv : u ≠ v) (x y : Fin n → ℝ) (hu : (mem u).Is x) (hv : (mem v).Is y)
    (hx : x ≠ 0) :
    ∃ v', vecProjectMem mem u v v = ok (0, Function.update mem v v') ∧ v'.Is x := by
  have hw := hv.wf
  unfold Vec.WF at hw
  have hc : (⟨(mem u).sz, (mem u).vals ++ (mem v).data.drop (mem u).sz⟩ : Vec XR).Is x := by
    rw [hu.1]
    exact Vec.is_of_append hu.vals
  have hxx := dotProduct_self_pos' hx
  unfold vecProjectMem
  rw [if_neg (by rw [hv.1, hu.1]; simp), vecCopyMem_eq, vec_copy_correct _ _ hu.wf (by rw [hu.1]; rw [hv.1] at hw; exact hw)]
  simp only [ok_bind, onObj, Function.update_self, Function.update_of_ne huv, bind_assoc', pure_eq,
    vec_dot_correct _ _ x x _ hc hu, vec_dot_correct _ _ x x _ hu hu]
  rw [XR.fin_div hxx.ne', vec_scalar_mult_correct _ _ hc.wf]
  refine ⟨_, by simp only [ok_bind, Function.update_idem]; rfl, ?_⟩
  have e : (x ⬝ᵥ x / x ⬝ᵥ x) • x = x := by rw [div_self hxx.ne', one_smul]
  exact cast (congrArg (Vec.Is _) e) (is_scaled hc _ _ _ hu.1)

/-- C145, limit of the property: so `zsl_vec_project(u, v, v)` does not project. Projecting (0, 1) onto (1, 0) this way gives (1, 0)
instead of (0, 0). -/
theorem vec_project_over_v_wrong : ∃ (mem : VMem XR) (u v : ℕ) (x y : Fin 2 → ℝ), (mem u).Is x ∧ (mem v).Is y ∧ x ≠ 0 ∧
    ∃ v', vecProjectMem mem u v v = ok (0, Function.update mem v v') ∧ ¬ v'.Is (((y ⬝ᵥ x) / (x ⬝ᵥ x)) • x) := by
  have hne : (![1, 0] : Fin 2 → ℝ) ≠ 0 := by
    intro h
    simpa using congrFun h 0
  have h0 : (⟨2, [XR.fin 1, XR.fin 0]⟩ : Vec XR).Is (![1, 0] : Fin 2 → ℝ) := ⟨rfl, by intro i; fin_cases i <;> rfl⟩
  have h1 : (⟨2, [XR.fin 0, XR.fin 1]⟩ : Vec XR).Is (![0, 1] : Fin 2 → ℝ) := ⟨rfl, by intro i; fin_cases i <;> rfl⟩
  refine ⟨fun p => if p = 0 then ⟨2, [XR.fin 1, XR.fin 0]⟩ else ⟨2, [XR.fin 0, XR.fin 1]⟩, 0, 1, ![1, 0], ![0, 1], h0, h1, hne, ?_⟩
  obtain ⟨v', hv', his⟩ := vec_project_over_v (fun p => if p = 0 then ⟨2, [XR.fin 1, XR.fin 0]⟩ else ⟨2, [XR.fin 0, XR.fin 1]⟩) 0 1
    (by decide) ![1, 0] ![0, 1] h0 h1 hne
  refine ⟨v', hv', fun hbad => ?_⟩
  have e1 := his.2 0
  rw [hbad.2 0] at e1
  simp at e1

/-! ## Cross product -/

/-- C145, C08. `zsl_vec_cross(v, w, c)` with an output that is neither input; the inputs may be the same vector. -/
theorem vec_cross_separate (mem : VMem R) (v w c : ℕ) (hv : c ≠ v) (hw : c ≠ w) (hvf : (mem v).WF) (hwf : (mem w).WF) :
    vecCrossMem mem v w c = (vecCross (mem v) (mem w) (mem c) >>= fun r => ok (r.1, Function.update mem c r.2)) := by
  unfold vecCrossMem vecCross
  by_cases h : (mem v).sz ≠ 3 ∨ (mem w).sz ≠ 3 ∨ (mem c).sz ≠ 3
  · rw [if_pos h, if_pos h]
    simp
  · rw [if_neg h, if_neg h]
    unfold Vec.WF at hvf hwf
    rw [show (mem v).sz = 3 by omega] at hvf
    rw [show (mem w).sz = 3 by omega] at hwf
    simp only [VMem.setData_ne _ _ hv.symm, VMem.setData_ne _ _ hw.symm, VMem.setData_at, VMem.setData_setData,
      rd_lt (show 0 < (mem v).data.length by omega), rd_lt (show 1 < (mem v).data.length by omega),
      rd_lt (show 2 < (mem v).data.length by omega), rd_lt (show 0 < (mem w).data.length by omega),
      rd_lt (show 1 < (mem w).data.length by omega), rd_lt (show 2 < (mem w).data.length by omega), ok_bind, bind_assoc', pure_eq]
    rfl

/-- C145, C08. `zsl_vec_cross(v, w, v)` is the in-place call whose result is not the cross product (`vec_cross_in_place_wrong`). -/
theorem vec_cross_over_v (mem : VMem R) (v w : ℕ) (hvw : v ≠ w) (hwf : (mem w).WF) :
    vecCrossMem mem v w v = (vecCrossInPlace (mem v) (mem w) >>= fun r => ok (r.1, Function.update mem v r.2)) := by
  unfold vecCrossMem vecCrossInPlace
  by_cases h : (mem v).sz ≠ 3 ∨ (mem w).sz ≠ 3 ∨ (mem v).sz ≠ 3
  · rw [if_pos h, if_pos h]
    simp
  · rw [if_neg h, if_neg h]
    unfold Vec.WF at hwf
    rw [show (mem w).sz = 3 by omega] at hwf
    have l0 := rd_lt (show 0 < (mem w).data.length by omega)
    have l1 := rd_lt (show 1 < (mem w).data.length by omega)
    have l2 := rd_lt (show 2 < (mem w).data.length by omega)
    simp only [VMem.setData_ne _ _ hvw.symm, VMem.setData_at, VMem.setData_setData, l0, l1, l2, ok_bind, bind_assoc', pure_eq]
    rfl

/-- C145, limit of the property: with the output being the second input the result is not the cross product either:
for v = (0, 1, 0) and w = (0, 0, 1), whose product is (1, 0, 0), `zsl_vec_cross(v, w, w)` stores (1, 0, -1). -/
theorem vec_cross_over_w_wrong : ∃ (mem : VMem XR) (v w : ℕ) (x y : Fin 3 → ℝ), (mem v).Is x ∧ (mem w).Is y ∧ v ≠ w ∧
    ∃ w', vecCrossMem mem v w w = ok (0, Function.update mem w w') ∧ ¬ w'.Is (crossProduct x y) := by
  have h0 : (⟨3, [XR.fin 0, XR.fin 1, XR.fin 0]⟩ : Vec XR).Is (![0, 1, 0] : Fin 3 → ℝ) := ⟨rfl, by intro i; fin_cases i <;> rfl⟩
  have h1 : (⟨3, [XR.fin 0, XR.fin 0, XR.fin 1]⟩ : Vec XR).Is (![0, 0, 1] : Fin 3 → ℝ) := ⟨rfl, by intro i; fin_cases i <;> rfl⟩
  refine ⟨fun p => if p = 0 then ⟨3, [XR.fin 0, XR.fin 1, XR.fin 0]⟩ else ⟨3, [XR.fin 0, XR.fin 0, XR.fin 1]⟩, 0, 1,
    ![0, 1, 0], ![0, 0, 1], h0, h1, by decide, ?_⟩
  refine ⟨⟨3, [XR.fin 1, XR.fin 0, XR.fin (-1)]⟩, ?_, fun hbad => ?_⟩
  · simp [vecCrossMem, rd, wr, VMem.setData]
  · have := hbad.2 2
    simp [crossProduct] at this

end Verif
