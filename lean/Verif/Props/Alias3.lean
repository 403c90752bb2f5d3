import Verif.Lemmas.Alias
import Verif.Props.Matrices2

/-!
# C03, C145: matrices with shared storage, element-wise operations, product, transpose
-/

set_option linter.unusedSectionVars false

namespace Verif

open Out

variable {R : Type} [CReal R]

/-! ## Element-wise operations -/

/-- What the switch computes for the four operations that do not fall through. -/
theorem binaryStmts_arith (op : BinaryOp) (hop : op = .add ∨ op = .sub ∨ op = .mult ∨ op = .div) :
    ∃ f : R → R → R, binaryStmts op = ([f], true) ∧ ∀ a b, binaryStep op a b = (some (f a b), true) := by
  rcases hop with rfl | rfl | rfl | rfl
  · exact ⟨_, rfl, fun _ _ => rfl⟩
  · exact ⟨_, rfl, fun _ _ => rfl⟩
  · exact ⟨_, rfl, fun _ _ => rfl⟩
  · exact ⟨_, rfl, fun _ _ => rfl⟩

/-- C03. `zsl_mtx_binary_op(ma, mb, mc, op)` for sum, difference, product and quotient by elements, for every memory, whichever of the three
pointers are equal, for every scalar type and also when buffers are too short: the call does what it does on three separate objects
with the contents at the call, and nothing but `mc` changes. -/
theorem mtx_binary_op_aliasing (mem : MMem R) (ma mb mc : ℕ) (op : BinaryOp) (hop : op = .add ∨ op = .sub ∨ op = .mult ∨ op = .div) :
    mtxBinaryOpMem mem ma mb mc op =
      (mtxBinaryOp (mem ma) (mem mb) (mem mc) op >>= fun r => ok (r.1, Function.update mem mc r.2)) := by
  obtain ⟨f, hf, hs⟩ := binaryStmts_arith (R := R) op hop
  unfold mtxBinaryOpMem mtxBinaryOp
  by_cases h : (mem ma).rows ≠ (mem mb).rows ∨ (mem mb).rows ≠ (mem mc).rows ∨ (mem ma).cols ≠ (mem mb).cols ∨
      (mem mb).cols ≠ (mem mc).cols
  · rw [if_pos h, if_pos h]
    simp
  rw [if_neg h, if_neg h]
  have := (forRet_sim (n := (mem ma).cols * (mem ma).rows) (f := fun i d => do
      let a ← rd (mem ma).data i
      let b ← rd (mem mb).data i
      match binaryStep op a b with
      | (some y, true) => do
        let d ← wr d i y
        return Ctl.next d
      | (some y, false) => do
        let d ← wr d i y
        return Ctl.ret (((-ENOSYS : Int)), d)
      | (none, _) => return Ctl.ret (((-ENOSYS : Int)), d)) (g := fun i (mem : MMem R) => do
      let mem ← assignsMem ma mb mc i (binaryStmts op).1 mem
      if (binaryStmts op (R := R)).2 then return Ctl.next mem else return Ctl.ret ((-ENOSYS : Int), mem))
      (fun d => mem.setData mc d) (fun r => (r.1, mem.setData mc r.2)) (fun i d => SameFrom (mem mc).data i d) (t := (mem mc).data)
      (fun j _ => rfl) ?_).1
  · rw [MMem.setData_self] at this
    rw [this]
    cases forRet ((mem ma).cols * (mem ma).rows) _ (mem mc).data with
    | ub => rfl
    | ok c => cases c <;> rfl
  · intro i _ d hd
    simp only [hf, hs, assignsMem, rd_setDataM hd, MMem.setData_at, MMem.setData_setData]
    constructor
    · cases rd (mem ma).data i with
      | ub => rfl
      | ok a =>
        cases rd (mem mb).data i with
        | ub => rfl
        | ok b =>
          simp only [ok_bind]
          cases wr d i (f a b) <;> rfl
    · intro d' h'
      cases hv : rd (mem ma).data i with
      | ub => simp [hv] at h'
      | ok a =>
        cases hw : rd (mem mb).data i with
        | ub => simp [hv, hw] at h'
        | ok b =>
          simp only [hv, hw, ok_bind] at h'
          cases hx : wr d i (f a b) with
          | ub => simp [hx] at h'
          | ok e =>
            rw [hx] at h'
            simp only [ok_bind, pure_eq] at h'
            cases h'
            exact hd.wr hx

/-- C03, C17. On real matrices: `zsl_mtx_add`, `zsl_mtx_sub` (and with `mc = ma` their `_d` variants) store the sum and the difference of the matrices
the operands were at the call, whatever pointers are equal, and change nothing else. -/
theorem mtx_add_sub_any_pointers {r c : ℕ} (mem : MMem XR) (ma mb mc : ℕ) (A B : Matrix (Fin r) (Fin c) ℝ) (C : Matrix (Fin r) (Fin c) XR)
    (t u w : List XR) (ha : mem ma = mat A t) (hb : mem mb = mat B u) (hc : mem mc = mtxOf C w) :
    mtxBinaryOpMem mem ma mb mc .add = ok (0, Function.update mem mc (mat (A + B) w)) ∧
    mtxBinaryOpMem mem ma mb mc .sub = ok (0, Function.update mem mc (mat (A - B) w)) := by
  obtain ⟨h1, h2⟩ := mtx_add_sub_correct A B C t u w
  unfold mtxAdd at h1
  unfold mtxSub at h2
  constructor
  · rw [mtx_binary_op_aliasing _ _ _ _ _ (by simp), ha, hb, hc, h1]
    rfl
  · rw [mtx_binary_op_aliasing _ _ _ _ _ (by simp), ha, hb, hc, h2]
    rfl

/-- C03. Both operands and the output the same matrix: `zsl_mtx_add_d(m, m)` doubles it, `zsl_mtx_sub_d(m, m)` clears it. -/
theorem mtx_add_sub_self {r c : ℕ} (mem : MMem XR) (m : ℕ) (A : Matrix (Fin r) (Fin c) ℝ) (t : List XR) (h : mem m = mat A t) :
    mtxBinaryOpMem mem m m m .add = ok (0, Function.update mem m (mat ((2 : ℝ) • A) t)) ∧
    mtxBinaryOpMem mem m m m .sub = ok (0, Function.update mem m (mat (0 : Matrix (Fin r) (Fin c) ℝ) t)) := by
  obtain ⟨h1, h2⟩ := mtx_add_sub_any_pointers mem m m m A A (A.map XR.fin) t t t h h h
  rw [h1, h2, sub_self, two_smul]
  exact ⟨rfl, rfl⟩

example : mtxBinaryOpMem (fun _ => mat !![1, 2; 3, 4] []) 7 7 7 .sub =
    ok (0, Function.update (fun _ => mat !![1, 2; 3, 4] []) 7 (mat (0 : Matrix (Fin 2) (Fin 2) ℝ) [])) :=
  (mtx_add_sub_self _ 7 _ [] rfl).2

/-- C03. The in-place model of `zsl_mtx_add_d`, `zsl_mtx_sub_d` used elsewhere is this call with `mc = ma`. -/
theorem mtx_binary_op_d_is (mem : MMem R) (ma mb : ℕ) (hab : ma ≠ mb) (op : BinaryOp)
    (hop : op = .add ∨ op = .sub ∨ op = .mult ∨ op = .div) :
    mtxBinaryOpMem mem ma mb ma op = (mtxBinaryOpD (mem ma) (mem mb) op >>= fun r => ok (r.1, Function.update mem ma r.2)) := by
  obtain ⟨f, hf, hs⟩ := binaryStmts_arith (R := R) op hop
  unfold mtxBinaryOpMem mtxBinaryOpD
  by_cases h : (mem ma).rows ≠ (mem mb).rows ∨ (mem mb).rows ≠ (mem ma).rows ∨ (mem ma).cols ≠ (mem mb).cols ∨
      (mem mb).cols ≠ (mem ma).cols
  · rw [if_pos h, if_pos h]
    simp
  rw [if_neg h, if_neg h]
  have := (forRet_sim (n := (mem ma).cols * (mem ma).rows) (f := fun i d => do
      let a ← rd d i
      let b ← rd (mem mb).data i
      match binaryStep op a b with
      | (some y, true) => do
        let d ← wr d i y
        return Ctl.next d
      | (some y, false) => do
        let d ← wr d i y
        return Ctl.ret (((-ENOSYS : Int)), d)
      | (none, _) => return Ctl.ret (((-ENOSYS : Int)), d)) (g := fun i (mem : MMem R) => do
      let mem ← assignsMem ma mb ma i (binaryStmts op).1 mem
      if (binaryStmts op (R := R)).2 then return Ctl.next mem else return Ctl.ret ((-ENOSYS : Int), mem))
      (fun d => mem.setData ma d) (fun r => (r.1, mem.setData ma r.2)) (fun _ _ => True) (t := (mem ma).data) trivial ?_).1
  · rw [MMem.setData_self] at this
    rw [this]
    cases forRet ((mem ma).cols * (mem ma).rows) _ (mem ma).data with
    | ub => rfl
    | ok c => cases c <;> rfl
  · intro i _ d _
    simp only [hf, hs, assignsMem, MMem.setData_at, MMem.setData_setData, MMem.setData_ne _ _ hab.symm]
    refine ⟨?_, fun _ _ => trivial⟩
    cases rd d i with
    | ub => rfl
    | ok a =>
      cases rd (mem mb).data i with
      | ub => rfl
      | ok b =>
        simp only [ok_bind]
        cases wr d i (f a b) <;> rfl

/-- The cases that fall through all end with the assignment of the last case. -/
theorem binaryStmts_fall (op : BinaryOp) (h1 : ¬ (op = .add ∨ op = .sub ∨ op = .mult ∨ op = .div)) (h2 : op ≠ .other) :
    ∃ fs : List (R → R → R), binaryStmts op = (fs ++ [fun a b => boolReal (CReal.ge a b)], false) ∧
      ∀ a b : R, binaryStep op a b = (some (boolReal (CReal.ge a b)), false) := by
  cases op with
  | add => simp at h1
  | sub => simp at h1
  | mult => simp at h1
  | div => simp at h1
  | other => exact absurd rfl h2
  | mean => exact ⟨fallThrough.take 9, rfl, fun _ _ => rfl⟩
  | expon => exact ⟨(fallThrough.take 9).drop 1, rfl, fun _ _ => rfl⟩
  | min => exact ⟨(fallThrough.take 9).drop 2, rfl, fun _ _ => rfl⟩
  | max => exact ⟨(fallThrough.take 9).drop 3, rfl, fun _ _ => rfl⟩
  | equal => exact ⟨(fallThrough.take 9).drop 4, rfl, fun _ _ => rfl⟩
  | nequal => exact ⟨(fallThrough.take 9).drop 5, rfl, fun _ _ => rfl⟩
  | less => exact ⟨(fallThrough.take 9).drop 6, rfl, fun _ _ => rfl⟩
  | great => exact ⟨(fallThrough.take 9).drop 7, rfl, fun _ _ => rfl⟩
  | leq => exact ⟨(fallThrough.take 9).drop 8, rfl, fun _ _ => rfl⟩
  | geq => exact ⟨[], rfl, fun _ _ => rfl⟩

/-- C145, C17. All the operations of the enum, with an output that is neither operand: storing all the intermediate results of the cases that fall
through, as the code does, leaves what storing only the last one leaves. -/
theorem mtx_binary_op_separate (mem : MMem R) (ma mb mc : ℕ) (op : BinaryOp) (hop : op ≠ .other) (hca : mc ≠ ma) (hcb : mc ≠ mb) :
    mtxBinaryOpMem mem ma mb mc op =
      (mtxBinaryOp (mem ma) (mem mb) (mem mc) op >>= fun r => ok (r.1, Function.update mem mc r.2)) := by
  by_cases har : op = .add ∨ op = .sub ∨ op = .mult ∨ op = .div
  · exact mtx_binary_op_aliasing mem ma mb mc op har
  obtain ⟨fs, hfs, hst⟩ := binaryStmts_fall (R := R) op har hop
  unfold mtxBinaryOpMem mtxBinaryOp
  by_cases h : (mem ma).rows ≠ (mem mb).rows ∨ (mem mb).rows ≠ (mem mc).rows ∨ (mem ma).cols ≠ (mem mb).cols ∨
      (mem mb).cols ≠ (mem mc).cols
  · rw [if_pos h, if_pos h]
    simp
  rw [if_neg h, if_neg h]
  have hrun : ∀ (i : ℕ) (fs : List (R → R → R)) (f : R → R → R) (d : List R) (a b : R), rd (mem ma).data i = ok a →
      rd (mem mb).data i = ok b → assignsMem ma mb mc i (fs ++ [f]) (mem.setData mc d) =
        (wr d i (f a b) >>= fun d => ok (mem.setData mc d)) := by
    intro i fs
    induction fs with
    | nil =>
      intro f d a b h1 h2
      rw [List.nil_append, assignsMem, MMem.setData_ne _ _ hca.symm, MMem.setData_ne _ _ hcb.symm, h1, h2]
      simp only [ok_bind, MMem.setData_at, MMem.setData_setData, assignsMem]
    | cons g fs ih =>
      intro f d a b h1 h2
      rw [List.cons_append, assignsMem, MMem.setData_ne _ _ hca.symm, MMem.setData_ne _ _ hcb.symm, h1, h2]
      simp only [ok_bind, MMem.setData_at, MMem.setData_setData]
      by_cases hi : i < d.length
      · rw [wr_lt _ hi, wr_lt _ hi, ok_bind, ih f _ a b h1 h2, wr_lt _ (by simpa using hi), List.set_set]
      · rw [wr_ge _ (by omega), wr_ge _ (by omega)]
        rfl
  have hub : ∀ (i : ℕ) (fs : List (R → R → R)) (d : List R), fs ≠ [] → (rd (mem ma).data i = ub ∨ rd (mem mb).data i = ub) →
      assignsMem ma mb mc i fs (mem.setData mc d) = ub := by
    intro i fs d hne hor
    cases fs with
    | nil => exact absurd rfl hne
    | cons g fs =>
      rw [assignsMem, MMem.setData_ne _ _ hca.symm, MMem.setData_ne _ _ hcb.symm]
      rcases hor with h | h
      · rw [h, ub_bind]
      · rw [h]
        cases rd (mem ma).data i <;> rfl
  have := (forRet_sim (n := (mem ma).cols * (mem ma).rows) (f := fun i d => do
      let a ← rd (mem ma).data i
      let b ← rd (mem mb).data i
      match binaryStep op a b with
      | (some y, true) => do
        let d ← wr d i y
        return Ctl.next d
      | (some y, false) => do
        let d ← wr d i y
        return Ctl.ret (((-ENOSYS : Int)), d)
      | (none, _) => return Ctl.ret (((-ENOSYS : Int)), d)) (g := fun i (mem : MMem R) => do
      let mem ← assignsMem ma mb mc i (binaryStmts op).1 mem
      if (binaryStmts op (R := R)).2 then return Ctl.next mem else return Ctl.ret ((-ENOSYS : Int), mem))
      (fun d => mem.setData mc d) (fun r => (r.1, mem.setData mc r.2)) (fun _ _ => True) (t := (mem mc).data) trivial ?_).1
  · rw [MMem.setData_self] at this
    rw [this]
    cases forRet ((mem ma).cols * (mem ma).rows) _ (mem mc).data with
    | ub => rfl
    | ok c => cases c <;> rfl
  · intro i _ d _
    refine ⟨?_, fun _ _ => trivial⟩
    simp only [hfs, hst]
    cases h1 : rd (mem ma).data i with
    | ub =>
      rw [hub i _ d (by simp) (Or.inl h1)]
      rfl
    | ok a =>
      cases h2 : rd (mem mb).data i with
      | ub =>
        rw [hub i _ d (by simp) (Or.inr h2)]
        rfl
      | ok b =>
        rw [hrun i fs _ d a b h1 h2]
        simp only [ok_bind]
        cases wr d i (boolReal (CReal.ge a b)) <;> rfl

/-! ## Product -/

/-- C145, C18. `zsl_mtx_mult(ma, mb, mc)` for every memory, whichever of the three pointers are equal, for every scalar type: the call does what it does on
three separate objects with the contents at the call, and nothing but `mc` changes. -/
theorem mtx_mult_aliasing (mem : MMem R) (ma mb mc : ℕ) :
    mtxMultMem mem ma mb mc = (mtxMult (mem ma) (mem mb) (mem mc) >>= fun r => ok (r.1, Function.update mem mc r.2)) := by
  unfold mtxMultMem mtxMult
  by_cases h1 : (mem ma).cols ≠ (mem mb).rows
  · rw [if_pos h1, if_pos h1]
    simp
  rw [if_neg h1, if_neg h1]
  by_cases h2 : (mem mc).rows ≠ (mem ma).rows ∨ (mem mc).cols ≠ (mem mb).cols
  · rw [if_pos h2, if_pos h2]
    simp
  rw [if_neg h2, if_neg h2]
  cases mtxCopy (⟨(mem ma).rows, (mem ma).cols, List.replicate ((mem ma).rows * (mem ma).cols) (lit 0)⟩ : Mtx R) (mem ma) with
  | ub => rfl
  | ok p =>
    simp only [ok_bind]
    cases mtxCopy (⟨(mem mb).rows, (mem mb).cols, List.replicate ((mem mb).rows * (mem mb).cols) (lit 0)⟩ : Mtx R) (mem mb) with
    | ub => rfl
    | ok q =>
      simp only [ok_bind]
      generalize p.2 = a
      generalize q.2 = b
      have key : forN a.rows (fun i (mem : MMem R) =>
          forN b.cols (fun j (mem : MMem R) => do
            let d ← wr (mem mc).data (j + i * b.cols) (lit 0)
            forN a.cols (fun k (mem : MMem R) => do
              let acc ← rd (mem mc).data (j + i * b.cols)
              let x ← rd a.data (k + i * a.cols)
              let y ← rd b.data (j + k * b.cols)
              let d ← wr (mem mc).data (j + i * b.cols) (acc + x * y)
              return mem.setData mc d) (mem.setData mc d)) mem) (mem.setData mc (mem mc).data) =
          (forN a.rows (fun i d =>
            forN b.cols (fun j d => do
              let d ← wr d (j + i * b.cols) (lit 0)
              forN a.cols (fun k d => do
                let acc ← rd d (j + i * b.cols)
                let x ← rd a.data (k + i * a.cols)
                let y ← rd b.data (j + k * b.cols)
                wr d (j + i * b.cols) (acc + x * y)) d) d) (mem mc).data >>= fun d => ok (mem.setData mc d)) := by
        refine (forN_sim (fun d => mem.setData mc d) (fun _ _ => True) trivial fun i _ d _ => ⟨?_, fun _ _ => trivial⟩).1
        refine (forN_sim (fun d => mem.setData mc d) (fun _ _ => True) trivial fun j _ d _ => ⟨?_, fun _ _ => trivial⟩).1
        simp only [MMem.setData_at, MMem.setData_setData, bind_assoc']
        cases wr d (j + i * b.cols) (lit 0) with
        | ub => rfl
        | ok d =>
          simp only [ok_bind]
          refine (forN_sim (fun d => mem.setData mc d) (fun _ _ => True) trivial fun k _ d _ => ⟨?_, fun _ _ => trivial⟩).1
          simp only [MMem.setData_at, MMem.setData_setData, bind_assoc', pure_eq]
      rw [MMem.setData_self] at key
      rw [key]
      simp only [bind_assoc', ok_bind, pure_eq]
      rfl

/-! ## Transpose -/

/-- C145. `zsl_mtx_trans(ma, mb)` with two different matrices. -/
theorem mtx_trans_separate (junk : ℕ → R) (mem : MMem R) (ma mb : ℕ) (hab : ma ≠ mb) :
    mtxTransMem junk mem ma mb = (mtxTrans junk (mem ma) (mem mb) >>= fun r => ok (r.1, Function.update mem mb r.2)) := by
  unfold mtxTransMem mtxTrans
  by_cases h1 : (mem ma).rows ≠ (mem mb).cols ∨ (mem ma).cols ≠ (mem mb).rows
  · rw [if_pos h1, if_pos h1]
    simp
  rw [if_neg h1, if_neg h1]
  by_cases h2 : (mem ma).cols = 0
  · rw [if_pos h2, if_pos h2]
    rfl
  rw [if_neg h2, if_neg h2]
  have := (forN_sim (n := (mem ma).rows) (f := fun i (s : List R × Mtx R) => do
      let (_, d) ← mtxGetRow (mem ma) i s.1
      let (_, mb) ← mtxSetCol s.2 i d
      return (d, mb)) (g := fun i (s : List R × MMem R) => do
      let (_, d) ← mtxGetRow (s.2 ma) i s.1
      let (_, mem) ← onObj s.2 mb (fun m => mtxSetCol m i d)
      return (d, mem)) (fun s => (s.1, Function.update mem mb s.2)) (fun _ _ => True) (t := (junkArr junk (mem ma).cols, mem mb)) trivial ?_).1
  · rw [Function.update_eq_self] at this
    rw [this]
    simp only [bind_assoc', ok_bind, pure_eq]
  · rintro i _ ⟨d, m⟩ -
    refine ⟨?_, fun _ _ => trivial⟩
    simp only [Function.update_of_ne hab, onObj, Function.update_self, bind_assoc', Function.update_idem, ok_bind, pure_eq]

end Verif
