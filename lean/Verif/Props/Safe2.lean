import Verif.Props.Safe1
import Verif.Lemmas.Minors

/-!
# Memory safety of the elementary functions of src/matrices.c for every content (C116)

For every scalar type, every well-formed matrix (the buffer holds at least rows * cols cells), every shape, every content.
-/

namespace Verif

open Out

set_option linter.unusedSectionVars false

variable {R : Type} [CReal R]

/-- C116. `zsl_mtx_get`, for every index. -/
theorem mtx_get_safe (m : Mtx R) (i j : ℕ) (x : R) (h : m.WF) : (mtxGet m i j x).sat fun _ => True := by
  unfold mtxGet
  split
  · simp
  · rename_i hi
    have := flat_lt (r := m.rows) (c := m.cols) (i := i) (j := j) (by omega) (by omega)
    unfold Mtx.WF at h
    simp
    omega

/-- C116. `zsl_mtx_set`, for every index. -/
theorem mtx_set_safe (m : Mtx R) (i j : ℕ) (x : R) (h : m.WF) : (mtxSet m i j x).sat fun p => m.Like p.2 := by
  unfold mtxSet
  split
  · simp [Mtx.Like]
  · rename_i hi
    have := flat_lt (r := m.rows) (c := m.cols) (i := i) (j := j) (by omega) (by omega)
    unfold Mtx.WF at h
    simp [Mtx.Like]
    omega

theorem forEntries_safe {σ : Type} {r c : ℕ} {body : ℕ → ℕ → σ → Out (Int × σ)} {s : σ} (P : σ → Prop) (h0 : P s)
    (hb : ∀ i j t, P t → (body i j t).sat fun p => P p.2) : (forEntries r c body s).sat fun p => P p.2 := by
  unfold forEntries
  refine Out.sat.bind (forRet_inv P (fun p : Int × σ => P p.2) h0 fun i hi t ht => ?_) ?_
  · refine forRet_inv P (fun p : Int × σ => P p.2) ht fun j hj t ht => ?_
    refine (hb i j t ht).bind ?_
    rintro ⟨rc, s⟩ hs
    dsimp only
    split <;> simpa using hs
  · rintro (x | x) h <;> simpa using h

/-- C116. `zsl_mtx_init` and `zsl_mtx_unary_func`, with any callback that is itself safe and keeps the shape, in particular the
callbacks of the library. -/
theorem mtx_init_callback_safe (m : Mtx R) (fn : EntryFn R)
    (hfn : ∀ (m' : Mtx R) i j, m.Like m' → (fn m' i j).sat fun p => m'.Like p.2) :
    ((mtxInit m (some fn)).sat fun p => m.Like p.2) ∧ (mtxUnaryFunc m (some fn)).sat fun p => m.Like p.2 := by
  constructor <;>
  · refine forEntries_safe (fun m' => m.Like m') (.refl _) fun i j t ht => ?_
    exact (hfn t i j ht).mono fun p hp => ht.trans hp

/-- C116. -/
theorem mtx_init_safe (m : Mtx R) (h : m.WF) :
    ((mtxInit m none).sat fun p => m.Like p.2) ∧ ((mtxInit m (some entryFnEmpty)).sat fun p => m.Like p.2) ∧
      ((mtxInit m (some entryFnIdentity)).sat fun p => m.Like p.2) ∧ (mtxInit m (some entryFnRandom)).sat fun p => m.Like p.2 := by
  refine ⟨?_, ?_, ?_, ?_⟩
  · refine forEntries_safe (fun m' => m.Like m') (.refl _) fun i j t ht => ?_
    exact (mtx_set_safe t i j _ (ht.wf h)).mono fun p hp => ht.trans hp
  all_goals
    exact (mtx_init_callback_safe m _ fun m' i j h' => mtx_set_safe m' i j _ (h'.wf h)).1

/-- C116. `zsl_mtx_from_arr`: the array must hold rows * cols elements. -/
theorem mtx_from_arr_safe (m : Mtx R) (a : List R) (h : m.WF) (ha : m.rows * m.cols ≤ a.length) :
    (mtxFromArr m a).sat fun p => m.Like p.2 := by
  refine Out.sat.bind (memcpyAt_safe (by simpa [Mtx.WF] using h) (by simpa using ha)) ?_
  intro d hd
  simp [Mtx.Like, hd]

/-- C116. `zsl_mtx_copy`, for every pair of shapes. -/
theorem mtx_copy_safe (d s : Mtx R) (hd : d.WF) (hs : s.WF) : (mtxCopy d s).sat fun p => d.Like p.2 := by
  unfold mtxCopy
  split
  · simp [Mtx.Like]
  rename_i hne
  push Not at hne
  unfold Mtx.WF at hd hs
  rw [hne.1, hne.2] at hd
  refine Out.sat.bind (memcpyAt_safe (by simpa using hd) (by simpa using hs)) ?_
  intro d' hd'
  simp [Mtx.Like, hd']

/-- C116. `zsl_mtx_get_row`, for every row index; the array must hold one element per column. -/
theorem mtx_get_row_safe (m : Mtx R) (i : ℕ) (v : List R) (h : m.WF) (hv : m.cols ≤ v.length) :
    (mtxGetRow m i v).sat fun p => p.2.length = v.length := by
  unfold mtxGetRow
  refine Out.sat.bind (forRet_inv (fun v' => v'.length = v.length) (fun p => p.2.length = v.length) rfl fun j hj t ht => ?_) ?_
  · refine (mtx_get_safe m i j _ h).bind ?_
    rintro ⟨rc, x⟩ _
    dsimp only
    split
    · simpa using ht
    · simp
      omega
  · rintro (x | x) h <;> simpa using h

/-- C116. `zsl_mtx_get_col`, for every column index; the array must hold one element per row. -/
theorem mtx_get_col_safe (m : Mtx R) (j : ℕ) (v : List R) (h : m.WF) (hv : m.rows ≤ v.length) :
    (mtxGetCol m j v).sat fun p => p.2.length = v.length := by
  unfold mtxGetCol
  refine Out.sat.bind (forRet_inv (fun v' => v'.length = v.length) (fun p => p.2.length = v.length) rfl fun i hi t ht => ?_) ?_
  · refine (mtx_get_safe m i j _ h).bind ?_
    rintro ⟨rc, x⟩ _
    dsimp only
    split
    · simpa using ht
    · simp
      omega
  · rintro (x | x) h <;> simpa using h

/-- C116. `zsl_mtx_set_row`, for every row index. -/
theorem mtx_set_row_safe (m : Mtx R) (i : ℕ) (v : List R) (h : m.WF) (hv : m.cols ≤ v.length) :
    (mtxSetRow m i v).sat fun p => m.Like p.2 := by
  unfold mtxSetRow
  refine Out.sat.bind (forRet_inv (fun m' => m.Like m') (fun p => m.Like p.2) (.refl _) fun j hj t ht => ?_) ?_
  · rw [rd_lt (by omega), ok_bind]
    refine (mtx_set_safe t i j _ (ht.wf h)).bind ?_
    rintro ⟨rc, x⟩ hx
    dsimp only
    split <;> simpa using ht.trans hx
  · rintro (x | x) h <;> simpa using h

/-- C116. `zsl_mtx_set_col`, for every column index. -/
theorem mtx_set_col_safe (m : Mtx R) (j : ℕ) (v : List R) (h : m.WF) (hv : m.rows ≤ v.length) :
    (mtxSetCol m j v).sat fun p => m.Like p.2 := by
  unfold mtxSetCol
  refine Out.sat.bind (forRet_inv (fun m' => m.Like m') (fun p => m.Like p.2) (.refl _) fun i hi t ht => ?_) ?_
  · rw [rd_lt (by omega), ok_bind]
    refine (mtx_set_safe t i j _ (ht.wf h)).bind ?_
    rintro ⟨rc, x⟩ hx
    dsimp only
    split <;> simpa using ht.trans hx
  · rintro (x | x) h <;> simpa using h

/-- C116. `zsl_mtx_unary_op`, for every operation, known or not. -/
theorem mtx_unary_op_safe (m : Mtx R) (op : UnaryOp) (h : m.WF) : (mtxUnaryOp m op).sat fun p => m.Like p.2 := by
  unfold mtxUnaryOp
  unfold Mtx.WF at h
  rw [Nat.mul_comm] at h
  refine Out.sat.bind (forRet_inv (fun d => d.length = m.data.length) (fun p => p.2.length = m.data.length) rfl fun i hi t ht => ?_) ?_
  · rw [rd_lt (by omega), ok_bind]
    split
    · simp
      omega
    · simpa using ht
  · rintro (x | ⟨rc, x⟩) h <;> simpa [Mtx.Like] using h

/-- C116. `zsl_mtx_binary_op`, for every operation and every combination of shapes. -/
theorem mtx_binary_op_safe (ma mb mc : Mtx R) (op : BinaryOp) (ha : ma.WF) (hb : mb.WF) (hc : mc.WF) :
    (mtxBinaryOp ma mb mc op).sat fun p => mc.Like p.2 := by
  unfold mtxBinaryOp
  split
  · simp [Mtx.Like]
  rename_i hne
  push Not at hne
  unfold Mtx.WF at ha hb hc
  rw [← hne.2.1, ← hne.1, ← hne.2.2.2, ← hne.2.2.1] at hc
  rw [← hne.1, ← hne.2.2.1] at hb
  rw [Nat.mul_comm] at ha hb hc
  refine Out.sat.bind (forRet_inv (fun d => d.length = mc.data.length) (fun p => p.2.length = mc.data.length) rfl fun i hi t ht => ?_) ?_
  · rw [rd_lt (by omega), ok_bind, rd_lt (by omega), ok_bind]
    split
    · simp
      omega
    · simp
      omega
    · simpa using ht
  · rintro (x | ⟨rc, x⟩) h <;> simpa [Mtx.Like] using h

/-- C116. `zsl_mtx_binary_op` in place. -/
theorem mtx_binary_op_d_safe (ma mb : Mtx R) (op : BinaryOp) (ha : ma.WF) (hb : mb.WF) :
    (mtxBinaryOpD ma mb op).sat fun p => ma.Like p.2 := by
  unfold mtxBinaryOpD
  split
  · simp [Mtx.Like]
  rename_i hne
  push Not at hne
  unfold Mtx.WF at ha hb
  rw [← hne.1, ← hne.2.2.1] at hb
  rw [Nat.mul_comm] at ha hb
  refine Out.sat.bind (forRet_inv (fun d => d.length = ma.data.length) (fun p => p.2.length = ma.data.length) rfl fun i hi t ht => ?_) ?_
  · rw [rd_lt (by omega), ok_bind, rd_lt (by omega), ok_bind]
    split
    · simp
      omega
    · simp
      omega
    · simpa using ht
  · rintro (x | ⟨rc, x⟩) h <;> simpa [Mtx.Like] using h

/-- C116. `zsl_mtx_add`, `zsl_mtx_sub` and their in-place forms. -/
theorem mtx_add_sub_safe (ma mb mc : Mtx R) (ha : ma.WF) (hb : mb.WF) (hc : mc.WF) :
    ((mtxAdd ma mb mc).sat fun p => mc.Like p.2) ∧ ((mtxSub ma mb mc).sat fun p => mc.Like p.2) ∧
      ((mtxAddD ma mb).sat fun p => ma.Like p.2) ∧ (mtxSubD ma mb).sat fun p => ma.Like p.2 :=
  ⟨mtx_binary_op_safe ma mb mc _ ha hb hc, mtx_binary_op_safe ma mb mc _ ha hb hc, mtx_binary_op_d_safe ma mb _ ha hb,
    mtx_binary_op_d_safe ma mb _ ha hb⟩

/-- C116. `zsl_mtx_sum_rows_d`, for every pair of rows. -/
theorem mtx_sum_rows_safe (m : Mtx R) (i j : ℕ) (h : m.WF) : (mtxSumRowsD m i j).sat fun p => m.Like p.2 := by
  unfold mtxSumRowsD
  split
  · simp [Mtx.Like]
  rename_i hij
  unfold Mtx.WF at h
  refine Out.sat.bind (P := fun d => d.length = m.data.length) ?_ (by intro d hd; simp [Mtx.Like, hd])
  refine forN_inv _ rfl fun x hx t ht => ?_
  have h1 := flat_lt (r := m.rows) (c := m.cols) (i := i) (j := x) (by omega) hx
  have h2 := flat_lt (r := m.rows) (c := m.cols) (i := j) (j := x) (by omega) hx
  simp
  omega

/-- C116. `zsl_mtx_sum_rows_scaled_d`, for every pair of rows of a matrix with at most as many columns as rows (the index check is
against the number of columns, C20 shows the out-of-bounds read otherwise). -/
theorem mtx_sum_rows_scaled_safe (m : Mtx R) (i j : ℕ) (s : R) (h : m.WF) (hsq : m.cols ≤ m.rows) :
    (mtxSumRowsScaledD m i j s).sat fun p => m.Like p.2 := by
  unfold mtxSumRowsScaledD
  split
  · simp [Mtx.Like]
  rename_i hij
  unfold Mtx.WF at h
  refine Out.sat.bind (P := fun d => d.length = m.data.length) ?_ (by intro d hd; simp [Mtx.Like, hd])
  refine forN_inv _ rfl fun x hx t ht => ?_
  have h1 := flat_lt (r := m.rows) (c := m.cols) (i := i) (j := x) (by omega) hx
  have h2 := flat_lt (r := m.rows) (c := m.cols) (i := j) (j := x) (by omega) hx
  simp
  omega

/-- C116. `zsl_mtx_mult`, for every combination of shapes. -/
theorem mtx_mult_safe (ma mb mc : Mtx R) (ha : ma.WF) (hb : mb.WF) (hc : mc.WF) : (mtxMult ma mb mc).sat fun p => mc.Like p.2 := by
  unfold mtxMult
  split
  · simp [Mtx.Like]
  split
  · simp [Mtx.Like]
  rename_i h1 h2
  push Not at h1 h2
  refine (mtx_copy_safe ⟨ma.rows, ma.cols, List.replicate (ma.rows * ma.cols) (lit 0)⟩ ma (by simp [Mtx.WF]) ha).bind ?_
  rintro ⟨_, a⟩ ⟨a1, a2, a3⟩
  refine (mtx_copy_safe ⟨mb.rows, mb.cols, List.replicate (mb.rows * mb.cols) (lit 0)⟩ mb (by simp [Mtx.WF]) hb).bind ?_
  rintro ⟨_, b⟩ ⟨b1, b2, b3⟩
  dsimp only at a1 a2 a3 b1 b2 b3 ⊢
  simp only [List.length_replicate] at a3 b3
  unfold Mtx.WF at hc
  rw [h2.1, h2.2] at hc
  refine Out.sat.bind (P := fun d => d.length = mc.data.length) ?_ (by intro d hd; simp [Mtx.Like, hd])
  refine forN_inv _ rfl fun i hi t ht => forN_inv _ ht fun j hj t ht => ?_
  rw [a1] at hi
  rw [b2] at hj
  have e := flat_lt hi hj
  rw [b2, wr_lt _ (by omega), ok_bind]
  refine forN_inv _ (by simpa using ht) fun k hk t ht => ?_
  rw [a2] at hk ⊢
  have e2 := flat_lt hi hk
  have e3 := flat_lt (show k < mb.rows by omega) hj
  simp
  omega

/-- C116. `zsl_mtx_mult_d`, for every pair of shapes. -/
theorem mtx_mult_d_safe (ma mb : Mtx R) (ha : ma.WF) (hb : mb.WF) : (mtxMultD ma mb).sat fun p => ma.Like p.2 := by
  unfold mtxMultD
  split
  · simp [Mtx.Like]
  split
  · simp [Mtx.Like]
  exact (mtx_mult_safe ma mb ma ha hb ha).bind fun p hp => by simpa using hp

/-- C116. `zsl_mtx_scalar_mult_d`. -/
theorem mtx_scalar_mult_safe (m : Mtx R) (s : R) (h : m.WF) : (mtxScalarMultD m s).sat fun p => m.Like p.2 :=
  (forN_cells (fun _ a => a * s) h).bind fun d hd => by simp [Mtx.Like, hd]

/-- C116. `zsl_mtx_scalar_mult_row_d`, for every row. -/
theorem mtx_scalar_mult_row_safe (m : Mtx R) (i : ℕ) (s : R) (h : m.WF) : (mtxScalarMultRowD m i s).sat fun p => m.Like p.2 := by
  unfold mtxScalarMultRowD
  split
  · simp [Mtx.Like]
  unfold Mtx.WF at h
  refine Out.sat.bind (P := fun d => d.length = m.data.length) ?_ (by intro d hd; simp [Mtx.Like, hd])
  refine forN_inv _ rfl fun x hx t ht => ?_
  have h1 := flat_lt (r := m.rows) (c := m.cols) (i := i) (j := x) (by omega) hx
  simp
  omega

/-- C116. `zsl_mtx_trans`, for every pair of shapes with at least one column. -/
theorem mtx_trans_safe (junk : ℕ → R) (ma mb : Mtx R) (ha : ma.WF) (hb : mb.WF) (hc : 0 < ma.cols) :
    (mtxTrans junk ma mb).sat fun p => mb.Like p.2 := by
  unfold mtxTrans
  split
  · simp [Mtx.Like]
  rename_i hne
  push Not at hne
  rw [if_neg (by omega)]
  refine Out.sat.bind (P := fun s => s.1.length = ma.cols ∧ mb.Like s.2) ?_ (by rintro ⟨_, m⟩ ⟨_, h⟩; simpa using h)
  refine forN_inv _ ⟨by simp, .refl _⟩ ?_
  rintro i hi ⟨v, m⟩ ⟨hv, hm⟩
  dsimp only at hv hm ⊢
  refine (mtx_get_row_safe ma i v ha (by omega)).bind ?_
  rintro ⟨_, d⟩ hd
  dsimp only at hd ⊢
  refine (mtx_set_col_safe m i d (hm.wf hb) (by rw [hm.1, ← hne.2]; omega)).bind ?_
  rintro ⟨_, m'⟩ hm'
  simp only [pure_eq, sat_ok]
  exact ⟨by omega, hm.trans hm'⟩

/-- C116. `zsl_mtx_adjoint_3x3` and `zsl_mtx_deter_3x3`, for every combination of shapes. -/
theorem mtx_3x3_safe (m ma : Mtx R) (d : R) (h : m.WF) (ha : ma.WF) :
    ((mtxAdjoint3x3 m ma).sat fun p => ma.Like p.2) ∧ (mtxDeter3x3 m d).sat fun _ => True := by
  unfold Mtx.WF at h ha
  constructor
  · unfold mtxAdjoint3x3
    split
    · simp [Mtx.Like]
    split
    · simp [Mtx.Like]
    rename_i h1 h2
    have e1 : 9 ≤ m.data.length := by
      have : m.rows = 3 ∧ m.cols = 3 := by omega
      rw [this.1, this.2] at h
      omega
    have e2 : 9 ≤ ma.data.length := by
      have : ma.rows = 3 ∧ ma.cols = 3 := by omega
      rw [this.1, this.2] at ha
      omega
    simp [Mtx.Like]
    omega
  · unfold mtxDeter3x3
    split
    · simp
    split
    · simp
    rename_i h1 h2
    have e1 : 9 ≤ m.data.length := by
      have : m.rows = 3 ∧ m.cols = 3 := by omega
      rw [this.1, this.2] at h
      omega
    simp
    omega

end Verif
