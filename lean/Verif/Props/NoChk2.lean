import Verif.Props.NoChk1
import Verif.Base.XR

/-!
# Builds without bounds checks: determinant, elimination, inverse, decompositions

Functions that do not check all shapes themselves are compared on the shapes they are meant for; what happens on other shapes that the
build with checks accepts is shown by examples.
-/

namespace Verif

open NoChkL Out

variable {R : Type} [CReal R]

/-! ### Determinant, adjoint, elimination, inverse -/

/-- C147. `zsl_mtx_reduce` of a matrix that is not taller than wide. The full claim, for every accepted call, is false: see
`nochk_mtx_reduce_fails`. -/
theorem nochk_mtx_reduce_partial (junk : Nat → R) (x0 : R) (m mr : Mtx R) (i j : Nat) (h : m.rows ≤ m.cols) :
    SameIfAccepted (mtxReduce junk x0 m mr i j) (NoChk.mtxReduce junk x0 m mr i j) := by
  refine sameIf_of_eq fun ⟨out, ho⟩ => ?_
  unfold mtxReduce at ho
  by_cases h0 : mr.rows = 0
  · rw [if_pos h0] at ho
    cases ho
  rw [if_neg h0] at ho
  have h1 := passed ho
  rw [if_neg h1] at ho
  have h2 := passed ho
  rw [if_neg h2] at ho
  have h3 := passed ho
  exact reduce_eq h (by omega) (by omega) (by omega) (by omega)

/-- C147. `zsl_mtx_reduce` of a tall matrix is accepted: an entry that is not there is replaced by the one before. Without the checks the call reads
past the end of the matrix. -/
theorem nochk_mtx_reduce_fails (junk : Nat → R) (x0 a b c d e f z : R) :
    (∃ out, mtxReduce junk x0 ⟨3, 2, [a, b, c, d, e, f]⟩ ⟨2, 1, [z, z]⟩ 0 0 = ok (0, out)) ∧
    NoChk.mtxReduce junk x0 ⟨3, 2, [a, b, c, d, e, f]⟩ ⟨2, 1, [z, z]⟩ 0 0 = ub := by
  exact ⟨⟨_, rfl⟩, rfl⟩

/-- C147. `zsl_mtx_deter_3x3`. -/
theorem nochk_mtx_deter_3x3 (m : Mtx R) (d : R) : SameIfAccepted (mtxDeter3x3 m d) (NoChk.mtxDeter3x3 m d) := by
  refine sameIf_of_eq fun ⟨out, h⟩ => ?_
  unfold mtxDeter3x3 at h
  have h1 := passed h
  rw [if_neg h1] at h
  have h2 := passed h
  exact deter3_eq (by omega)

/-- C147. `zsl_mtx_deter`. -/
theorem nochk_mtx_deter (junk : Nat → R) (m : Mtx R) (d : R) : SameIfAccepted (mtxDeter junk m d) (NoChk.mtxDeter junk m d) := by
  refine sameIf_of_eq fun ⟨out, h⟩ => ?_
  refine deter_eq fun h1 h2 h3 => ?_
  unfold mtxDeter mtxDeterN at h
  rw [if_neg h1, if_neg h2, if_neg h3] at h
  have := passed h
  omega

/-- C147. `zsl_mtx_adjoint_3x3`. -/
theorem nochk_mtx_adjoint_3x3 (m a : Mtx R) : SameIfAccepted (mtxAdjoint3x3 m a) (NoChk.mtxAdjoint3x3 m a) := by
  refine sameIf_of_eq fun ⟨out, h⟩ => ?_
  unfold mtxAdjoint3x3 at h
  have h1 := passed h
  rw [if_neg h1] at h
  have h2 := passed h
  exact adjoint3_eq (by omega) (by omega)

/-- C147. `zsl_mtx_adjoint` with an output of the shape of the matrix. The full claim, for every accepted call, is false: see
`nochk_mtx_adjoint_fails`. -/
theorem nochk_mtx_adjoint_partial (junk : Nat → R) (m a : Mtx R) (hr : a.rows = m.rows) (hc : a.cols = m.cols) :
    SameIfAccepted (mtxAdjoint junk m a) (NoChk.mtxAdjoint junk m a) := by
  refine sameIf_of_eq fun ⟨out, h⟩ => ?_
  by_cases h3 : m.rows = 3
  · unfold mtxAdjoint at h
    rw [if_pos h3] at h
    unfold NoChk.mtxAdjoint mtxAdjoint
    rw [if_pos h3, if_pos h3]
    exact adjoint3_eq h3 (by omega)
  · unfold mtxAdjoint at h
    rw [if_neg h3] at h
    have := passed h
    exact adjoint_eq (by omega) hr hc

/-- C147. `zsl_mtx_adjoint` accepts an output that is too small, and leaves out the entries that do not fit. Without the checks it writes
past the end of the output. -/
theorem nochk_mtx_adjoint_fails (junk : Nat → R) (a b c d z : R) :
    (∃ out, mtxAdjoint junk ⟨2, 2, [a, b, c, d]⟩ ⟨1, 1, [z]⟩ = ok (0, out)) ∧
    NoChk.mtxAdjoint junk ⟨2, 2, [a, b, c, d]⟩ ⟨1, 1, [z]⟩ = ub := by
  exact ⟨⟨_, rfl⟩, rfl⟩

theorem copy_rc {a b : Mtx R} {r : Int × Mtx R} (h : mtxCopy a b = ok r) (h0 : ¬ r.1 ≠ 0) : a.rows = b.rows ∧ a.cols = b.cols := by
  unfold mtxCopy at h
  by_cases hb : a.rows ≠ b.rows ∨ a.cols ≠ b.cols
  · rw [if_pos hb] at h
    cases h
    exact absurd einval_ne h0
  · omega

/-- C147. `zsl_mtx_gauss_elim` and `zsl_mtx_gauss_elim_d`. -/
theorem nochk_mtx_gauss_elim (x0 : R) (m mg mi : Mtx R) (i j : Nat) :
    SameIfAccepted (mtxGaussElim x0 m mg mi i j) (NoChk.mtxGaussElim x0 m mg mi i j) ∧
    SameIfAccepted (mtxGaussElimD x0 m mi i j) (NoChk.mtxGaussElimD x0 m mi i j) := by
  constructor
  · intro out h
    unfold mtxGaussElim at h
    unfold NoChk.mtxGaussElim
    obtain ⟨⟨rc, mg'⟩, hc, h⟩ := bind_ok h
    dsimp only at h
    by_cases hrc : rc ≠ 0
    · rw [if_pos hrc] at h
      exact (not_zero_einval h).elim
    · rw [if_neg hrc] at h
      have hs := copy_rc hc hrc
      rw [copy_eq hs.1 hs.2, hc, ok_bind]
      dsimp only
      rw [if_neg hrc]
      exact elimBody_ok h rfl
  · intro out h
    exact elimBody_ok h rfl

/-- C147. `zsl_mtx_norm_elem` and `zsl_mtx_norm_elem_d`. -/
theorem nochk_mtx_norm_elem (x0 : R) (m mn mi : Mtx R) (i j : Nat) :
    SameIfAccepted (mtxNormElem x0 m mn mi i j) (NoChk.mtxNormElem x0 m mn mi i j) ∧
    SameIfAccepted (mtxNormElemD x0 m mi i j) (NoChk.mtxNormElemD x0 m mi i j) := by
  constructor
  · intro out h
    unfold mtxNormElem at h
    unfold NoChk.mtxNormElem
    obtain ⟨⟨rc, mg'⟩, hc, h⟩ := bind_ok h
    dsimp only at h
    by_cases hrc : rc ≠ 0
    · rw [if_pos hrc] at h
      exact (not_zero_einval h).elim
    · rw [if_neg hrc] at h
      have hs := copy_rc hc hrc
      rw [copy_eq hs.1 hs.2, hc, ok_bind]
      dsimp only
      rw [if_neg hrc]
      exact normBody_ok h rfl
  · intro out h
    exact normBody_ok h rfl

/-- C147. `zsl_mtx_gauss_reduc` of a square matrix, with an output of its shape and a companion that is at least as large. The full claim, for every
accepted call, is false: see `nochk_mtx_gauss_reduc_fails`. -/
theorem nochk_mtx_gauss_reduc_partial (junk : Nat → R) (m mi mg : Mtx R) (hsq : m.cols = m.rows) (hgr : mg.rows = m.rows) (hgc : mg.cols = m.cols)
    (hr : m.rows ≤ mi.rows) (hc : m.rows ≤ mi.cols) : NoChk.mtxGaussReduc junk m mi mg = mtxGaussReduc junk m mi mg :=
  (gaussReduc_eq hsq hgr hgc hr hc).1

/-- C147. `zsl_mtx_gauss_reduc` does not look at the results of the elimination steps: with a companion that is too small (here 1×1 for a
2×2 matrix) it returns 0 with the checks and leaves the array without them. The scalars are those of the exact model. -/
theorem nochk_mtx_gauss_reduc_fails (junk : Nat → XR) (z : XR) :
    (∃ out, mtxGaussReduc junk ⟨2, 2, [XR.fin 1, XR.fin 0, XR.fin 0, XR.fin 1]⟩ ⟨1, 1, [z]⟩ ⟨2, 2, [z, z, z, z]⟩ = ok (0, out)) ∧
    NoChk.mtxGaussReduc junk ⟨2, 2, [XR.fin 1, XR.fin 0, XR.fin 0, XR.fin 1]⟩ ⟨1, 1, [z]⟩ ⟨2, 2, [z, z, z, z]⟩ = ub := by
  have z1 : isZeroE (XR.fin 1) = false := by
    simp [isZeroE, XR.lit_eq]
    norm_num
  have n0 : isNonzeroE (XR.fin 0) = false := by
    simp [isNonzeroE, XR.lit_eq]
    norm_num
  have hl : ∀ (i : Nat) (mi : Mtx XR) (x y : XR), i = 0 ∨ i = 1 →
      gaussElimLoop ⟨2, 2, [XR.fin 1, XR.fin 0, XR.fin 0, XR.fin 1]⟩ mi i i x y 0 =
        ok (0, ⟨2, 2, [XR.fin 1, XR.fin 0, XR.fin 0, XR.fin 1]⟩, mi) ∧
      NoChk.gaussElimLoop ⟨2, 2, [XR.fin 1, XR.fin 0, XR.fin 0, XR.fin 1]⟩ mi i i x y 0 =
        ok (0, ⟨2, 2, [XR.fin 1, XR.fin 0, XR.fin 0, XR.fin 1]⟩, mi) := by
    rintro i mi x y (rfl | rfl) <;> constructor
    · rw [gaussElimLoop]
      simp [mtxGet, rd, n0]
      rw [gaussElimLoop]
      simp
    · rw [NoChk.gaussElimLoop]
      simp [NoChk.mtxGet, rd, n0]
      rw [NoChk.gaussElimLoop]
      simp
    · rw [gaussElimLoop]
      simp [mtxGet, rd, n0]
      rw [gaussElimLoop]
      simp
    · rw [NoChk.gaussElimLoop]
      simp [NoChk.mtxGet, rd, n0]
      rw [NoChk.gaussElimLoop]
      simp
  have hd : XR.fin 1 / XR.fin 1 = XR.fin 1 := by
    rw [XR.fin_div one_ne_zero]
    norm_num
  have ho : XR.fin 1 * XR.fin 1 = XR.fin 1 := by
    rw [XR.fin_mul]
    norm_num
  have hz : XR.fin 0 * XR.fin 1 = XR.fin 0 := by
    rw [XR.fin_mul]
    norm_num
  constructor
  · exact ⟨_, by
      simp only [mtxGaussReduc, mtxCopy, gaussReducStep, mtxGaussElimD, mtxNormElemD, gaussElimBody, normElemBody]
      simp [memcpyAt, mtxGet, forN, rd, wr, z1, hl, mtxScalarMultRowD, hd, ho, hz, EINVAL]
      rfl⟩
  · simp only [NoChk.mtxGaussReduc, NoChk.mtxCopy, NoChk.gaussReducStep, NoChk.mtxGaussElimD, NoChk.mtxNormElemD, NoChk.gaussElimBody,
      NoChk.normElemBody]
    simp [memcpyAt, NoChk.mtxGet, forN, rd, wr, z1, hl, NoChk.mtxScalarMultRowD, hd, ho, hz]

/-- C147. `zsl_mtx_inv_3x3`. -/
theorem nochk_mtx_inv_3x3 (x0 : R) (m mi : Mtx R) : SameIfAccepted (mtxInv3x3 x0 m mi) (NoChk.mtxInv3x3 x0 m mi) := by
  refine sameIf_of_eq fun ⟨out, h⟩ => ?_
  unfold mtxInv3x3 at h
  have h1 := passed h
  rw [if_neg h1] at h
  have h2 := passed h
  rw [if_neg h2] at h
  have h3 := passed h
  rw [if_neg h3] at h
  have h4 := passed h
  exact inv3_eq (by omega) (by omega) (by omega)

/-- C147. `zsl_mtx_inv`. -/
theorem nochk_mtx_inv (junk : Nat → R) (m mi : Mtx R) : SameIfAccepted (mtxInv junk m mi) (NoChk.mtxInv junk m mi) := by
  refine sameIf_of_eq fun ⟨out, h⟩ => ?_
  have hs : m.rows = mi.rows ∧ m.cols = mi.cols := by
    unfold mtxInv at h
    by_cases h3 : m.rows = 3
    · rw [if_pos h3] at h
      unfold mtxInv3x3 at h
      have h1 := passed h
      rw [if_neg h1] at h
      have h2 := passed h
      rw [if_neg h2] at h
      have h3 := passed h
      omega
    · rw [if_neg h3] at h
      have h1 := passed h
      rw [if_neg h1] at h
      have h2 := passed h
      omega
  exact inv_eq hs.1.symm hs.2.symm

/-- C147. `zsl_mtx_vec_wedge`. -/
theorem nochk_mtx_vec_wedge (junk : Nat → R) (m : Mtx R) (v : Vec R) : SameIfAccepted (mtxVecWedge junk m v) (NoChk.mtxVecWedge junk m v) := by
  refine sameIf_of_eq fun ⟨out, h⟩ => ?_
  have := passed h
  exact wedge_eq (by omega) (by omega) (by omega)

/-- C147. `zsl_mtx_augm_diag` of a matrix that is not taller than wide into one that is large enough and not taller than wide. -/
theorem nochk_mtx_augm_diag (x0 : R) (m a : Mtx R) (h1 : m.rows ≤ m.cols) (h2 : m.rows ≤ a.rows) (h3 : a.rows ≤ a.cols) :
    NoChk.mtxAugmDiag x0 m a = mtxAugmDiag x0 m a := (augm_eq h1 h2 h3).1

/-! ### Decompositions -/

/-- C147. `zsl_mtx_gram_schmidt` with an output that is at least as wide as the matrix. -/
theorem nochk_mtx_gram_schmidt (junk : Nat → R) (m mort : Mtx R) (h : m.cols ≤ mort.cols) :
    NoChk.mtxGramSchmidt junk m mort = mtxGramSchmidt junk m mort := gramSchmidt_eq h

/-- C147. `zsl_mtx_cols_norm` with an output that is at least as wide as the matrix. -/
theorem nochk_mtx_cols_norm (junk : Nat → R) (m mn : Mtx R) (h : m.cols ≤ mn.cols) :
    NoChk.mtxColsNorm junk m mn = mtxColsNorm junk m mn := colsNorm_eq h

/-- C147. `zsl_mtx_cholesky`: squareness, symmetry and shape of the output are all checked under the option. -/
theorem nochk_mtx_cholesky (x0 : R) (m l : Mtx R) : SameIfAccepted (mtxCholesky x0 m l) (NoChk.mtxCholesky x0 m l) :=
  fun _ h => cholesky_ok h (Ne.symm einval_ne)

/-- C147. `zsl_mtx_balance`. -/
theorem nochk_mtx_balance (fuel : Nat) (junk : Nat → R) (m mout : Mtx R) :
    SameIfAccepted (mtxBalance fuel junk m mout) (NoChk.mtxBalance fuel junk m mout) := by
  refine sameIf_of_eq fun ⟨out, h⟩ => ?_
  unfold mtxBalance at h
  have h1 := passed h
  rw [if_neg h1] at h
  have h2 := passed h
  rw [if_neg h2] at h
  have h3 := passed h
  exact balance_eq (by omega) (by omega)

/-- C147. `zsl_mtx_householder` of a matrix with at least one column, with an output that is large enough. -/
theorem nochk_mtx_householder (junk : Nat → R) (m h : Mtx R) (hess : Bool) (h0 : 0 < m.cols) (h1 : m.rows ≤ h.rows) (h2 : h.rows ≤ h.cols) :
    NoChk.mtxHouseholder junk m h hess = mtxHouseholder junk m h hess := (householder_eq h0 h1 h2).1

/-- C147. `zsl_mtx_qrd` of a matrix that is not taller than wide, square if a Hessenberg form is asked for, with outputs of the right shapes. -/
theorem nochk_mtx_qrd (junk : Nat → R) (m q r : Mtx R) (hess : Bool) (hle : m.rows ≤ m.cols) (hsq : hess = true → m.rows = m.cols)
    (hq : q.rows = m.rows ∧ q.cols = m.rows) (hr : r.rows = m.rows ∧ r.cols = m.cols) :
    NoChk.mtxQrd junk m q r hess = mtxQrd junk m q r hess := (qrd_eq hle hsq hq hr).1

/-- C147. `zsl_mtx_qrd_iter` of a square matrix, with an output of its shape. -/
theorem nochk_mtx_qrd_iter (junk : Nat → R) (m mout : Mtx R) (iter : Nat) (hsq : m.rows = m.cols)
    (ho : mout.rows = m.rows ∧ mout.cols = m.cols) : NoChk.mtxQrdIter junk m mout iter = mtxQrdIter junk m mout iter := (qrdIter_eq hsq ho).1

/-- One by one matrices are symmetric in the exact model, whatever the entry. -/
theorem oneSym_xr (junk : Nat → XR) : OneSym junk := by
  intro a hr hc h
  have hx : ∀ x : XR, (CReal.ge (x - x) (lit 1e-6) || CReal.le (x - x) (-lit 1e-6)) = false := by
    intro x
    cases x with
    | fin r =>
      simp [XR.lit_eq]
      norm_num
    | _ => rfl
  unfold mtxIsSym at h
  rw [hr, hc] at h
  simp only [forRet, mtxGet, hr, hc] at h
  cases hd : rd a.data 0 with
  | ub => simp [hd] at h
  | ok x =>
    have h2 := hx x
    simp only [hd, ok_bind, pure_eq, Nat.zero_mul, Nat.zero_add, ge_iff_le, Nat.not_lt_zero, Nat.reduceLeDiff, or_self, if_false, h2,
      Bool.false_eq_true] at h
    cases h

/-- C147. `zsl_mtx_eigenvalues` of a square matrix, with any output vector. -/
theorem nochk_mtx_eigenvalues (fuel : Nat) (junk : Nat → XR) (m : Mtx XR) (v : Vec XR) (iter : Nat) (hsq : m.rows = m.cols) :
    NoChk.mtxEigenvalues fuel junk m v iter = mtxEigenvalues fuel junk m v iter := by
  by_cases h0 : m.rows = 0
  · unfold NoChk.mtxEigenvalues mtxEigenvalues
    rw [if_pos h0, if_pos h0]
  · exact eigenvalues_eq hsq (two_or_sym (oneSym_xr junk) (shp_self m |> fun h => ⟨h.1, h.2.trans hsq.symm⟩) h0)

/-- C147. `zsl_mtx_eigenvectors` of a square matrix, with or without orthonormalisation and with any output. -/
theorem nochk_mtx_eigenvectors (fuel : Nat) (junk : Nat → XR) (m mev : Mtx XR) (iter : Nat) (orth : Bool) (hsq : m.rows = m.cols) :
    SameIfAccepted (mtxEigenvectors fuel junk m mev iter orth) (NoChk.mtxEigenvectors fuel junk m mev iter orth) := by
  intro out h
  by_cases h0 : m.rows = 0
  · unfold mtxEigenvectors at h
    rw [if_pos h0] at h
    cases h
  · have := eigenvectors_ok hsq (two_or_sym (oneSym_xr junk) (shp_self m |> fun h => ⟨h.1, h.2.trans hsq.symm⟩) h0) h
    exact this.2.2 (le_of_eq (this.2.1 rfl))

/-- The transpose and the two products return 0. -/
theorem product_codes {junk : Nat → R} {m t a b : Mtx R} {c1 c2 c3 : Int} (h1 : mtxTrans junk m (Mtx.uninit junk m.cols m.rows) = ok (c1, t))
    (h2 : mtxMult m t (Mtx.uninit junk m.rows m.rows) = ok (c2, a)) (h3 : mtxMult t m (Mtx.uninit junk m.cols m.cols) = ok (c3, b)) :
    c1 = 0 ∧ c2 = 0 ∧ c3 = 0 := by
  have st : Shp t m.cols m.rows := shp_trans (b := Mtx.uninit junk m.cols m.rows) (shp_self _) h1
  have ht : c1 = 0 := by
    unfold mtxTrans at h1
    rw [if_neg (by simp [Mtx.uninit])] at h1
    split_ifs at h1
    obtain ⟨_, _, h1⟩ := bind_ok h1
    injection h1 with h1
    exact (congrArg Prod.fst h1).symm
  have hm : ∀ {x y z w : Mtx R} {c : Int}, x.cols = y.rows → z.rows = x.rows → z.cols = y.cols → mtxMult x y z = ok (c, w) → c = 0 := by
    intro x y z w c e1 e2 e3 h
    unfold mtxMult at h
    rw [if_neg (by simp [e1]), if_neg (by simp [e2, e3])] at h
    obtain ⟨_, _, h⟩ := bind_ok h
    obtain ⟨_, _, h⟩ := bind_ok h
    obtain ⟨_, _, h⟩ := bind_ok h
    injection h with h
    exact (congrArg Prod.fst h).symm
  exact ⟨ht, hm (z := Mtx.uninit junk m.rows m.rows) st.1.symm rfl st.2.symm h2,
    hm (z := Mtx.uninit junk m.cols m.cols) st.2 st.1.symm rfl h3⟩

/-- C147. `zsl_mtx_svd`, with outputs of the right shapes, when it finds full sets of eigenvectors of both products of the matrix with its
transpose: it does not look at the results of these two calls. -/
theorem nochk_mtx_svd_partial (fuel : Nat) (junk : Nat → XR) (m u e v : Mtx XR) (iter : Nat)
    (hu : u.rows = m.rows ∧ u.cols = m.rows) (he : e.rows = m.rows ∧ e.cols = m.cols)
    (hful : ∀ t a b : Mtx XR, mtxTrans junk m (Mtx.uninit junk m.cols m.rows) = ok (0, t) →
      mtxMult m t (Mtx.uninit junk m.rows m.rows) = ok (0, a) → mtxMult t m (Mtx.uninit junk m.cols m.cols) = ok (0, b) →
      FullEig fuel junk b v iter ∧ FullEig fuel junk a (Mtx.uninit junk m.rows m.rows) iter) :
    SameIfAccepted (mtxSvd fuel junk m u e v iter) (NoChk.mtxSvd fuel junk m u e v iter) := by
  intro out h
  refine (svd_ok (oneSym_xr junk) (by omega) (Or.inl (by omega)) (Or.inr (by omega)) ?_ h).1
  intro t a b c1 c2 c3 h1 h2 h3
  obtain ⟨rfl, rfl, rfl⟩ := product_codes h1 h2 h3
  exact hful t a b h1 h2 h3

/-- C147. `zsl_mtx_pinv`, under the same condition. -/
theorem nochk_mtx_pinv_partial (fuel : Nat) (junk : Nat → XR) (m p : Mtx XR) (iter : Nat) (hp : p.rows = m.cols ∧ p.cols = m.rows)
    (hful : ∀ t a b : Mtx XR, mtxTrans junk m (Mtx.uninit junk m.cols m.rows) = ok (0, t) →
      mtxMult m t (Mtx.uninit junk m.rows m.rows) = ok (0, a) → mtxMult t m (Mtx.uninit junk m.cols m.cols) = ok (0, b) →
      FullEig fuel junk b (Mtx.uninit junk m.cols m.cols) iter ∧ FullEig fuel junk a (Mtx.uninit junk m.rows m.rows) iter) :
    SameIfAccepted (mtxPinv fuel junk m p iter) (NoChk.mtxPinv fuel junk m p iter) := by
  intro out h
  refine pinv_ok (oneSym_xr junk) hp ?_ h
  intro t a b c1 c2 c3 h1 h2 h3
  obtain ⟨rfl, rfl, rfl⟩ := product_codes h1 h2 h3
  exact hful t a b h1 h2 h3

/-! Non-vacuity: calls that the build with checks accepts. For the decompositions see `Verif/Props/NoChk3.lean`. -/

example (junk : Nat → R) (x0 a b c d z : R) : ∃ x, mtxReduce junk x0 ⟨2, 2, [a, b, c, d]⟩ ⟨1, 1, [z]⟩ 0 0 = ok (0, ⟨1, 1, [x]⟩) :=
  ⟨_, rfl⟩
example (a b c d e f g h i z : R) : ∃ x, mtxDeter3x3 ⟨3, 3, [a, b, c, d, e, f, g, h, i]⟩ z = ok (0, x) := ⟨_, rfl⟩
example (a b c d e f g h i z : R) : ∃ x, mtxAdjoint3x3 ⟨3, 3, [a, b, c, d, e, f, g, h, i]⟩ ⟨3, 3, [z, z, z, z, z, z, z, z, z]⟩ = ok (0, x) :=
  ⟨_, rfl⟩

end Verif
