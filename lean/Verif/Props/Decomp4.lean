import Mathlib.LinearAlgebra.Matrix.Charpoly.Basic
import Mathlib.LinearAlgebra.Matrix.Charpoly.Coeff
import Verif.Model.MatDecomp
import Verif.Lemmas.VecReal

/-!
# Properties of balancing (C30) and of the inversion of singular values in the pseudo-inverse (C34)
-/

set_option linter.unusedSectionVars false

namespace Verif

open Out

variable {n : ℕ}

/-- `x.post P`: if the code finishes, its result satisfies `P`. -/
def Out.post {α : Type} (x : Out α) (P : α → Prop) : Prop := ∀ a, x = ok a → P a

theorem Out.post.bind {α β : Type} {x : Out α} {f : α → Out β} {P : α → Prop} {Q : β → Prop}
    (h : x.post P) (hf : ∀ a, P a → (f a).post Q) : (x >>= f).post Q := by
  intro b hb
  cases x with
  | ok a => exact hf a (h a rfl) b hb
  | ub => cases hb

theorem Out.post_ok {α : Type} {a : α} {P : α → Prop} (h : P a) : (ok a).post P := by
  rintro b ⟨⟩
  exact h

theorem Out.post_any {α β : Type} {x : Out α} {f : α → Out β} {Q : β → Prop} (hf : ∀ a, (f a).post Q) :
    (x >>= f).post Q := Out.post.bind (P := fun _ => True) (fun _ _ => trivial) fun a _ => hf a

theorem forN_post {σ : Type} {n : ℕ} {f : ℕ → σ → Out σ} {s : σ} (P : ℕ → σ → Prop) (h0 : P 0 s)
    (hs : ∀ i, i < n → ∀ t, P i t → (f i t).post (P (i + 1))) : (forN n f s).post (P n) := by
  induction n with
  | zero => exact Out.post_ok h0
  | succ n ih =>
    rw [forN_succ]
    exact (ih fun i hi => hs i (by omega)).bind fun t ht => hs n (by omega) t ht

/-! ## C30: balancing -/

theorem balanceUp_post (fuel : ℕ) (row2 col : XR) (p : ℝ) (hp : 0 < p) :
    (balanceUp fuel row2 col (XR.fin p)).post fun s => ∃ p' : ℝ, 0 < p' ∧ s.2 = XR.fin p' := by
  induction fuel generalizing col p with
  | zero =>
    unfold balanceUp
    split_ifs
    · rintro _ ⟨⟩
    · exact Out.post_ok ⟨p, hp, rfl⟩
  | succ fuel ih =>
    unfold balanceUp
    split_ifs
    · simp only
      rw [XR.lit_eq, XR.lit_eq, XR.fin_mul]
      exact ih _ _ (by norm_num; exact hp)
    · exact Out.post_ok ⟨p, hp, rfl⟩

theorem balanceDown_post (fuel : ℕ) (row2 col : XR) (p : ℝ) (hp : 0 < p) :
    (balanceDown fuel row2 col (XR.fin p)).post fun s => ∃ p' : ℝ, 0 < p' ∧ s.2 = XR.fin p' := by
  induction fuel generalizing col p with
  | zero =>
    unfold balanceDown
    split_ifs
    · rintro _ ⟨⟩
    · exact Out.post_ok ⟨p, hp, rfl⟩
  | succ fuel ih =>
    unfold balanceDown
    split_ifs
    · simp only
      rw [XR.lit_eq, XR.lit_eq, XR.fin_div (by norm_num)]
      exact ih _ _ (by norm_num; exact hp)
    · exact Out.post_ok ⟨p, hp, rfl⟩

/-- The cells of a matrix scaled by a diagonal similarity. -/
noncomputable def simD (n : ℕ) (A : ℕ → ℕ → ℝ) (d : ℕ → ℝ) (t : List XR) : List XR :=
  mkD n n (fun a b => XR.fin (A a b * d b / d a)) t

theorem balance_scale (A : ℕ → ℕ → ℝ) (d : ℕ → ℝ) (t : List XR) (i : ℕ) (hi : i < n) (p : ℝ) (hp : 0 < p)
    (hd : ∀ a, 0 < d a) :
    forN n (fun k d => do
          let a ← rd d (i * n + k)
          let d ← wr d (i * n + k) (a * (lit 1 / XR.fin p))
          let b ← rd d (k * n + i)
          wr d (k * n + i) (b * XR.fin p)) (simD n A d t) =
      ok (simD n A (fun a => if a = i then d a * p else d a) t) := by
  have hp0 := hp.ne'
  have hd0 := fun a => (hd a).ne'
  set M : ℕ → ℕ → ℝ := fun a b => A a b * d b / d a with hM
  rw [forN_eq (fun k => mkD n n (fun a b => XR.fin (M a b * (if a = i ∧ b < k then 1 / p else 1) *
    (if b = i ∧ a < k then p else 1))) t)]
  · congr 1
    refine mkD_congr fun a ha b hb => ?_
    simp only [hM]
    congr 1
    have ha0 := hd0 a
    have hb0 := hd0 b
    by_cases h1 : a = i <;> by_cases h2 : b = i
    · simp only [h1, h2, hi]
      simp
      field_simp
    · subst h1
      simp [h2, hb]
      field_simp
    · subst h2
      simp [h1, ha]
      field_simp
    · simp [h1, h2]
  · refine mkD_congr fun a ha b hb => ?_
    simp [hM]
  · intro k hk
    rw [mkD_rd _ _ hi hk, ok_bind, XR.lit_eq, XR.fin_div hp0]
    rw [XR.fin_mul, mkD_wr _ _ _ hi hk, ok_bind, mkD_rd _ _ hk hi, ok_bind]
    have hval : ∃ y, upd (fun a b => XR.fin (M a b * (if a = i ∧ b < k then 1 / p else 1) *
        (if b = i ∧ a < k then p else 1))) i k (XR.fin (M i k * (if i = i ∧ k < k then 1 / p else 1) *
        (if k = i ∧ i < k then p else 1) * (((1 : ℚ) : ℝ) / p))) k i = XR.fin y ∧
        y = M k i * (if k = i then 1 / p else 1) := by
      unfold upd
      by_cases h : k = i
      · subst h
        rw [if_pos ⟨rfl, rfl⟩]
        refine ⟨_, rfl, ?_⟩
        simp
      · rw [if_neg (fun hh => h hh.1)]
        refine ⟨_, rfl, ?_⟩
        simp [h]
    obtain ⟨y, hy, hy2⟩ := hval
    rw [hy, XR.fin_mul, mkD_wr _ _ _ hk hi]
    congr 1
    refine mkD_congr fun a ha b hb => ?_
    unfold upd
    rw [hy2]
    by_cases h1 : a = k ∧ b = i
    · obtain ⟨rfl, rfl⟩ := h1
      rw [if_pos ⟨rfl, rfl⟩]
      congr 1
      by_cases h : a = b
      · subst h
        simp
      · simp [h]
    · rw [if_neg h1]
      by_cases h2 : a = i ∧ b = k
      · obtain ⟨rfl, rfl⟩ := h2
        rw [if_pos ⟨rfl, rfl⟩]
        congr 1
        have : ¬ (b = a) := fun h => h1 ⟨h.symm, h⟩
        simp [this]
      · rw [if_neg h2]
        have e1 : (a = i ∧ b < k) ↔ (a = i ∧ b < k + 1) := by omega
        have e2 : (b = i ∧ a < k) ↔ (b = i ∧ a < k + 1) := by omega
        simp only [e1, e2]

/-- What one pass over a row leaves: again a diagonal similarity of the input. -/
theorem balanceRow_post (fuel : ℕ) (A : ℕ → ℕ → ℝ) (t : List XR) (i : ℕ) (hi : i < n) (s : Bool × XR × XR × List XR)
    (hs : ∃ d : ℕ → ℝ, (∀ a, 0 < d a) ∧ s.2.2.2 = simD n A d t) :
    (balanceRow fuel n i s).post fun s => ∃ d : ℕ → ℝ, (∀ a, 0 < d a) ∧ s.2.2.2 = simD n A d t := by
  obtain ⟨done, row, col, data⟩ := s
  obtain ⟨d, hd, hs⟩ := hs
  dsimp only at hs
  subst hs
  unfold balanceRow
  dsimp only
  refine Out.post_any ?_
  rintro ⟨row, col⟩
  dsimp only
  refine Out.post.bind (P := fun s : Bool × List XR => ∃ d : ℕ → ℝ, (∀ a, 0 < d a) ∧ s.2 = simD n A d t) ?_ ?_
  · split_ifs
    · refine Out.post.bind (balanceUp_post _ _ _ ((1 : ℚ) : ℝ) (by norm_num)) ?_
      rintro ⟨col, col2⟩ ⟨p, hp, hp2⟩
      dsimp only at hp2
      subst hp2
      dsimp only
      refine Out.post.bind (balanceDown_post _ _ _ p hp) ?_
      rintro ⟨col, col2⟩ ⟨p, hp, hp2⟩
      dsimp only at hp2
      subst hp2
      dsimp only
      split_ifs
      · rw [balance_scale A d t i hi p hp hd, ok_bind]
        refine Out.post_ok ⟨fun a => if a = i then d a * p else d a, fun a => ?_, rfl⟩
        dsimp only
        split_ifs
        · exact mul_pos (hd a) hp
        · exact hd a
      · exact Out.post_ok ⟨d, hd, rfl⟩
    · exact Out.post_ok ⟨d, hd, rfl⟩
  · rintro ⟨done, data⟩ h
    exact Out.post_ok h

theorem balanceLoop_post (fuel : ℕ) (A : ℕ → ℕ → ℝ) (t : List XR) (row col : XR) (data : List XR)
    (hs : ∃ d : ℕ → ℝ, (∀ a, 0 < d a) ∧ data = simD n A d t) :
    (balanceLoop fuel n row col data).post fun data => ∃ d : ℕ → ℝ, (∀ a, 0 < d a) ∧ data = simD n A d t := by
  induction fuel generalizing row col data with
  | zero =>
    rintro _ ⟨⟩
  | succ fuel ih =>
    unfold balanceLoop
    refine Out.post.bind (forN_post (fun _ (s : Bool × XR × XR × List XR) =>
      ∃ d : ℕ → ℝ, (∀ a, 0 < d a) ∧ s.2.2.2 = simD n A d t) hs fun i hi s h => balanceRow_post _ A t i hi s h) ?_
    rintro ⟨done, row, col, data⟩ h
    dsimp only
    split_ifs
    · exact Out.post_ok h
    · exact ih _ _ _ h

/-- C30. Whenever `zsl_mtx_balance` returns, it returns 0 and has stored a matrix diagonally similar to its input: entry (i, j) is
`A i j * d j / d i` for positive factors `d`. This holds whatever the uninitialised locals contain. -/
theorem mtx_balance_correct (fuel : ℕ) (junk : ℕ → XR) (A : Matrix (Fin n) (Fin n) ℝ) (B : Matrix (Fin n) (Fin n) XR)
    (t u : List XR) (rc : Int) (m' : Mtx XR) (h : mtxBalance fuel junk (mat A t) (mtxOf B u) = ok (rc, m')) :
    rc = 0 ∧ ∃ d : Fin n → ℝ, (∀ i, 0 < d i) ∧ m' = mat (Matrix.of fun i j => A i j * d j / d i) u := by
  unfold mtxBalance at h
  rw [if_neg (by simp), if_neg (by simp), if_neg (by simp), show mat A t = mtxOf (A.map XR.fin) t from rfl,
    mtx_copy_correct, ok_bind] at h
  dsimp only at h
  rw [if_neg (by simp), mtxOf_rows] at h
  set F : ℕ → ℕ → ℝ := fun a b => if h : a < n ∧ b < n then A ⟨a, h.1⟩ ⟨b, h.2⟩ else 0 with hF
  have hdata : (mtxOf (A.map XR.fin) u).data = simD n F (fun _ => 1) u := by
    rw [mtxOf_eq, mkM_data]
    refine mkD_congr fun a ha b hb => ?_
    rw [ext_lt _ ha hb]
    simp [hF, ha, hb]
  rw [hdata] at h
  have hp := balanceLoop_post (n := n) fuel F u (junk 0) (junk 1) _ ⟨fun _ => 1, fun _ => one_pos, rfl⟩
  cases hl : balanceLoop fuel n (junk 0) (junk 1) (simD n F (fun _ => 1) u) with
  | ub =>
    rw [hl] at h
    cases h
  | ok data =>
    rw [hl, ok_bind] at h
    obtain ⟨d, hd, rfl⟩ := hp data hl
    cases h
    refine ⟨rfl, fun i => d i, fun i => hd i, ?_⟩
    unfold mat
    rw [mtxOf_eq, mtxOf_eq]
    simp only [mkM_rows, mkM_cols]
    unfold mkM simD
    congr 1
    refine mkD_congr fun a ha b hb => ?_
    rw [ext_lt _ ha hb]
    simp [hF, ha, hb]

/-- C30. Balancing never changes the characteristic polynomial, the determinant or the trace. -/
theorem mtx_balance_charpoly (fuel : ℕ) (junk : ℕ → XR) (A : Matrix (Fin n) (Fin n) ℝ) (B : Matrix (Fin n) (Fin n) XR)
    (t u : List XR) (rc : Int) (m' : Mtx XR) (h : mtxBalance fuel junk (mat A t) (mtxOf B u) = ok (rc, m')) :
    ∃ M : Matrix (Fin n) (Fin n) ℝ, m' = mat M u ∧ M.charpoly = A.charpoly ∧ M.det = A.det ∧ M.trace = A.trace := by
  obtain ⟨_, d, hd, hm⟩ := mtx_balance_correct fuel junk A B t u rc m' h
  refine ⟨_, hm, ?_⟩
  have hd0 : ∀ i, d i ≠ 0 := fun i => (hd i).ne'
  set P : Matrix (Fin n) (Fin n) ℝ := Matrix.diagonal fun i => (d i)⁻¹ with hP
  set P' : Matrix (Fin n) (Fin n) ℝ := Matrix.diagonal d with hP'
  have hPP : P * P' = 1 := by
    rw [hP, hP', Matrix.diagonal_mul_diagonal]
    simp [hd0]
  have hP'P : P' * P = 1 := by
    rw [hP, hP', Matrix.diagonal_mul_diagonal]
    simp [hd0]
  have hM : (Matrix.of fun i j => A i j * d j / d i) = P * A * P' := by
    ext i j
    rw [Matrix.mul_diagonal, Matrix.diagonal_mul, Matrix.of_apply]
    ring
  rw [hM]
  refine ⟨?_, ?_, ?_⟩
  · have hi : P⁻¹ = P' := Matrix.inv_eq_right_inv hPP
    have := Matrix.charpoly_units_conj ⟨P, P', hPP, hP'P⟩ A
    simp only at this
    rw [← hi]
    exact this
  · rw [Matrix.det_mul, Matrix.det_mul, mul_right_comm, ← Matrix.det_mul, hPP, Matrix.det_one, one_mul]
  · rw [Matrix.trace_mul_comm, ← Matrix.mul_assoc, hP'P, Matrix.one_mul]

/-- C30. An input or output that is not square, or an output of another size, is refused and the output does not change. -/
theorem mtx_balance_shape (fuel : ℕ) (junk : ℕ → XR) (m mout : Mtx XR)
    (h : m.rows ≠ m.cols ∨ mout.rows ≠ mout.cols ∨ m.rows ≠ mout.rows) :
    mtxBalance fuel junk m mout = ok (-EINVAL, mout) := by
  unfold mtxBalance
  by_cases h1 : m.rows ≠ m.cols ∨ mout.rows ≠ mout.cols
  · rw [if_pos h1]
  · rw [if_neg h1, if_pos (by tauto)]

/-- A negative start value keeps the scaling loop running for ever. -/
theorem balanceUp_hang (fuel : ℕ) (col : ℝ) (col2 : XR) (hc : col < 0) : balanceUp fuel (XR.fin (1 / 2)) (XR.fin col) col2 = ub := by
  induction fuel generalizing col col2 with
  | zero =>
    unfold balanceUp
    rw [if_pos (by simp; linarith)]
  | succ fuel ih =>
    unfold balanceUp
    rw [if_pos (by simp; linarith)]
    simp only
    rw [XR.lit_eq, XR.fin_mul]
    exact ih _ _ (by push_cast; linarith)

/-- `zsl_mtx_balance` need not terminate: its locals `row` and `col` are used without being initialised, and when `col` happens to
start at -2 and `row` at 0, the call for the 1x1 matrix (1) never returns, however many steps it is given. -/
theorem mtx_balance_hangs : ∃ junk : ℕ → XR, ∀ fuel, mtxBalance fuel junk (mat (1 : Matrix (Fin 1) (Fin 1) ℝ) [])
    (mat (0 : Matrix (Fin 1) (Fin 1) ℝ) []) = ub := by
  refine ⟨fun k => if k = 1 then XR.fin (-2) else XR.fin 0, fun fuel => ?_⟩
  unfold mtxBalance
  rw [if_neg (by simp), if_neg (by simp), if_neg (by simp),
    show mat (1 : Matrix (Fin 1) (Fin 1) ℝ) [] = mtxOf ((1 : Matrix (Fin 1) (Fin 1) ℝ).map XR.fin) [] from rfl,
    show mat (0 : Matrix (Fin 1) (Fin 1) ℝ) [] = mtxOf ((0 : Matrix (Fin 1) (Fin 1) ℝ).map XR.fin) [] from rfl,
    mtx_copy_correct, ok_bind]
  dsimp only
  rw [if_neg (by simp), mtxOf_rows]
  have hd : (mtxOf ((1 : Matrix (Fin 1) (Fin 1) ℝ).map XR.fin) []).data = [XR.fin 1] := by
    rw [mtxOf_eq, mkM_data]
    simp [mkD, ext]
  rw [hd]
  cases fuel with
  | zero => rfl
  | succ fuel =>
    unfold balanceLoop
    rw [forN_succ, forN_zero, ok_bind]
    unfold balanceRow
    dsimp only
    rw [forN_succ, forN_zero]
    simp only [ok_bind, Nat.zero_mul, Nat.add_zero]
    rw [show rd [XR.fin 1] 0 = ok (XR.fin 1) from rfl]
    simp only [ok_bind, pure_eq]
    rw [if_pos (by simp; norm_num), if_pos trivial]
    have h1 : ((if (0 : ℕ) = 1 then XR.fin (-2) else XR.fin 0) + CReal.abs (XR.fin 1)) / (lit 2 : XR) = XR.fin (1 / 2) := by
      rw [if_neg (by norm_num), XR.fin_abs, XR.fin_add, XR.lit_eq, XR.fin_div (by norm_num)]
      congr 1
      norm_num
    have h2 : XR.fin (-2) + CReal.abs (XR.fin 1) = XR.fin (-1) := by
      rw [XR.fin_abs, XR.fin_add]
      congr 1
      norm_num
    rw [h1, h2, balanceUp_hang _ _ _ (by norm_num)]
    rfl

/-! ## C34: inverting the singular values -/

/-- C34. In `zsl_mtx_pinv` every diagonal element is replaced by its reciprocal, and nothing else changes: the guard
`(x < 1E-6) || (x > -1E-6)` never excludes a value. -/
theorem pinv_invert_exact {r c : ℕ} (x0 : XR) (E : Matrix (Fin r) (Fin c) ℝ) (t : List XR) (k : ℕ) (hr : k ≤ r) (hc : k ≤ c) :
    pinvInvert x0 k (mat E t) = ok (mtxOf (Matrix.of fun i j =>
      if i.val = j.val ∧ i.val < k then (XR.fin 1 / XR.fin (E i j) : XR) else XR.fin (E i j)) t) := by
  unfold pinvInvert
  have hloop : (forN k (fun g (s : XR × Mtx XR) => do
      let (_, x) ← mtxGet s.2 g g s.1
      if CReal.lt x (lit 1e-6) || CReal.gt x (-lit 1e-6) then do
        let x := lit 1 / x
        let (_, e) ← mtxSet s.2 g g x
        return (x, e)
      else return (x, s.2)) (x0, mat E t)).sat fun s => s.2 = mtxOf (Matrix.of fun i j =>
        if i.val = j.val ∧ i.val < k then (XR.fin 1 / XR.fin (E i j) : XR) else XR.fin (E i j)) t := by
    refine forN_sat (fun g (s : XR × Mtx XR) => s.2 = mtxOf (Matrix.of fun i j =>
        if i.val = j.val ∧ i.val < g then (XR.fin 1 / XR.fin (E i j) : XR) else XR.fin (E i j)) t) ?_ ?_
    · dsimp only
      unfold mat
      congr 1
      ext i j
      simp
    · rintro g hg ⟨x, e⟩ he
      dsimp only at he ⊢
      subst he
      obtain ⟨a, ha⟩ : ∃ a : Fin r, a.val = g := ⟨⟨g, by omega⟩, rfl⟩
      obtain ⟨b, hb⟩ : ∃ b : Fin c, b.val = g := ⟨⟨g, by omega⟩, rfl⟩
      have hget := mtx_get_correct (Matrix.of fun (i : Fin r) (j : Fin c) =>
        if i.val = j.val ∧ i.val < g then (XR.fin 1 / XR.fin (E i j) : XR) else XR.fin (E i j)) t x a b
      rw [ha, hb, Matrix.of_apply, if_neg (by omega)] at hget
      rw [hget, ok_bind]
      dsimp only
      have hguard : (CReal.lt (XR.fin (E a b)) (lit 1e-6 : XR) || CReal.gt (XR.fin (E a b)) (-lit 1e-6 : XR)) = true := by
        rw [Bool.or_eq_true]
        by_cases h : E a b < 1e-6
        · left
          simp
          norm_num at h ⊢
          exact h
        · right
          simp
          norm_num at h ⊢
          linarith
      rw [if_pos hguard]
      have hset := mtx_set_correct (Matrix.of fun (i : Fin r) (j : Fin c) =>
        if i.val = j.val ∧ i.val < g then (XR.fin 1 / XR.fin (E i j) : XR) else XR.fin (E i j)) t
        (lit 1 / XR.fin (E a b)) a b
      rw [ha, hb] at hset
      rw [hset, ok_bind]
      dsimp only
      rw [pure_eq, sat_ok]
      dsimp only
      congr 1
      ext i j
      simp only [Matrix.of_apply]
      by_cases h : i = a ∧ j = b
      · obtain ⟨rfl, rfl⟩ := h
        rw [if_pos ⟨rfl, rfl⟩, if_pos (by omega)]
        simp
      · rw [if_neg h]
        rw [Fin.ext_iff, Fin.ext_iff] at h
        exact if_congr (by omega) rfl rfl
  obtain ⟨⟨x, e⟩, hs, h2⟩ := hloop
  dsimp only at h2
  rw [hs, ok_bind, h2]
  rfl

/-- C34. Non-zero singular values are inverted and everything off the diagonal is kept. -/
theorem pinv_invert_partial {r c : ℕ} (x0 : XR) (E : Matrix (Fin r) (Fin c) ℝ) (t : List XR) (k : ℕ) (hr : k ≤ r) (hc : k ≤ c)
    (hE : ∀ i j, i.val = j.val → i.val < k → E i j ≠ 0) :
    pinvInvert x0 k (mat E t) = ok (mat (Matrix.of fun i j => if i.val = j.val ∧ i.val < k then (E i j)⁻¹ else E i j) t) := by
  rw [pinv_invert_exact x0 E t k hr hc]
  unfold mat
  congr 2
  ext i j
  simp only [Matrix.of_apply, Matrix.map_apply]
  by_cases h : i.val = j.val ∧ i.val < k
  · rw [if_pos h, if_pos h, XR.fin_div (hE i j h.1 h.2), one_div]
  · rw [if_neg h, if_neg h]

/-- C34 fails: a zero singular value does not stay zero, it becomes infinite. -/
theorem pinv_invert_zero_wrong {r c : ℕ} (x0 : XR) (E : Matrix (Fin r) (Fin c) ℝ) (t : List XR) (k : ℕ) (hr : k ≤ r) (hc : k ≤ c)
    (a : Fin r) (b : Fin c) (hab : a.val = b.val) (hk : a.val < k) (hz : E a b = 0) :
    ∃ X : Matrix (Fin r) (Fin c) XR, pinvInvert x0 k (mat E t) = ok (mtxOf X t) ∧ X a b = XR.pinf := by
  refine ⟨_, pinv_invert_exact x0 E t k hr hc, ?_⟩
  rw [Matrix.of_apply, if_pos ⟨hab, hk⟩, hz, XR.fin_div_zero]
  simp [XR.infOf]

/-- Non-vacuity: singular values 2 and 0. -/
example : ∃ X : Matrix (Fin 2) (Fin 2) XR, pinvInvert (XR.fin 0) 2 (mat !![2, 0; 0, 0] []) = ok (mtxOf X []) ∧
    X 1 1 = XR.pinf :=
  pinv_invert_zero_wrong (XR.fin 0) !![2, 0; 0, 0] [] 2 le_rfl le_rfl 1 1 rfl (by norm_num) (by simp)

end Verif
