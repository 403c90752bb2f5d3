import Verif.Lemmas.NoChk

/-!
# Checked and unchecked matrix functions

For each function: it gives the same result with checks on and off when the shapes fit, and what it does to the shapes.
-/

set_option linter.unusedSectionVars false

namespace Verif.NoChkL

open Out

variable {R : Type} [CReal R]

/-! ### Component-wise operations, row operations, product, transpose -/

theorem binaryOp_eq {a b c : Mtx R} {op : BinaryOp} (h1 : a.rows = b.rows) (h2 : b.rows = c.rows) (h3 : a.cols = b.cols)
    (h4 : b.cols = c.cols) : NoChk.mtxBinaryOp a b c op = mtxBinaryOp a b c op := by
  unfold NoChk.mtxBinaryOp mtxBinaryOp
  rw [if_neg (by omega)]
  rfl

theorem shp_binaryOp {a b c c' : Mtx R} {op : BinaryOp} {rc : Int} {r k : Nat} (h : Shp c r k)
    (he : mtxBinaryOp a b c op = ok (rc, c')) : Shp c' r k := by
  unfold mtxBinaryOp at he
  by_cases hb : a.rows ≠ b.rows ∨ b.rows ≠ c.rows ∨ a.cols ≠ b.cols ∨ b.cols ≠ c.cols
  · rw [if_pos hb] at he
    cases he
    exact h
  · rw [if_neg hb] at he
    obtain ⟨d, -, he⟩ := bind_ok he
    cases d with
    | next t => cases he; exact h
    | ret t => cases he; exact h

theorem binaryOpD_eq {a b : Mtx R} {op : BinaryOp} (h1 : a.rows = b.rows) (h3 : a.cols = b.cols) :
    NoChk.mtxBinaryOpD a b op = mtxBinaryOpD a b op := by
  unfold NoChk.mtxBinaryOpD mtxBinaryOpD
  rw [if_neg (by omega)]
  rfl

theorem shp_binaryOpD {a b c' : Mtx R} {op : BinaryOp} {rc : Int} {r k : Nat} (h : Shp a r k)
    (he : mtxBinaryOpD a b op = ok (rc, c')) : Shp c' r k := by
  unfold mtxBinaryOpD at he
  by_cases hb : a.rows ≠ b.rows ∨ b.rows ≠ a.rows ∨ a.cols ≠ b.cols ∨ b.cols ≠ a.cols
  · rw [if_pos hb] at he
    cases he
    exact h
  · rw [if_neg hb] at he
    obtain ⟨d, -, he⟩ := bind_ok he
    cases d with
    | next t => cases he; exact h
    | ret t => cases he; exact h

theorem sumRows_eq {m : Mtx R} {i j : Nat} (hi : i < m.rows) (hj : j < m.rows) :
    NoChk.mtxSumRowsD m i j = mtxSumRowsD m i j := by
  unfold NoChk.mtxSumRowsD mtxSumRowsD
  rw [if_neg (by omega)]

theorem shp_sumRows {m m' : Mtx R} {i j : Nat} {rc : Int} {r c : Nat} (h : Shp m r c)
    (he : mtxSumRowsD m i j = ok (rc, m')) : Shp m' r c := by
  unfold mtxSumRowsD at he
  by_cases hb : i ≥ m.rows ∨ j ≥ m.rows
  · rw [if_pos hb] at he
    cases he
    exact h
  · rw [if_neg hb] at he
    obtain ⟨d, -, he⟩ := bind_ok he
    cases he
    exact h

theorem sumRowsScaled_eq {m : Mtx R} {i j : Nat} {s : R} (hi : i < m.rows) (hj : j < m.cols) :
    NoChk.mtxSumRowsScaledD m i j s = mtxSumRowsScaledD m i j s := by
  unfold NoChk.mtxSumRowsScaledD mtxSumRowsScaledD
  rw [if_neg (by omega)]

theorem shp_sumRowsScaled {m m' : Mtx R} {i j : Nat} {s : R} {rc : Int} {r c : Nat} (h : Shp m r c)
    (he : mtxSumRowsScaledD m i j s = ok (rc, m')) : Shp m' r c := by
  unfold mtxSumRowsScaledD at he
  by_cases hb : i ≥ m.rows ∨ j ≥ m.cols
  · rw [if_pos hb] at he
    cases he
    exact h
  · rw [if_neg hb] at he
    obtain ⟨d, -, he⟩ := bind_ok he
    cases he
    exact h

/-- A row operation that succeeds was inside the bounds it checks. -/
theorem sumRowsScaled_rc {m m' : Mtx R} {i j : Nat} {s : R} {rc : Int} (he : mtxSumRowsScaledD m i j s = ok (rc, m'))
    (hrc : ¬ rc ≠ 0) : i < m.rows ∧ j < m.cols := by
  by_contra hb
  unfold mtxSumRowsScaledD at he
  rw [if_pos (by omega)] at he
  cases he
  exact hrc (by simp [EINVAL])

theorem scalarMultRow_eq {m : Mtx R} {i : Nat} {s : R} (hi : i < m.rows) :
    NoChk.mtxScalarMultRowD m i s = mtxScalarMultRowD m i s := by
  unfold NoChk.mtxScalarMultRowD mtxScalarMultRowD
  rw [if_neg (by omega)]

theorem shp_scalarMultRow {m m' : Mtx R} {i : Nat} {s : R} {rc : Int} {r c : Nat} (h : Shp m r c)
    (he : mtxScalarMultRowD m i s = ok (rc, m')) : Shp m' r c := by
  unfold mtxScalarMultRowD at he
  by_cases hb : i ≥ m.rows
  · rw [if_pos hb] at he
    cases he
    exact h
  · rw [if_neg hb] at he
    obtain ⟨d, -, he⟩ := bind_ok he
    cases he
    exact h

theorem scalarMultRow_rc {m m' : Mtx R} {i : Nat} {s : R} {rc : Int} (he : mtxScalarMultRowD m i s = ok (rc, m'))
    (hrc : ¬ rc ≠ 0) : i < m.rows := by
  by_contra hb
  unfold mtxScalarMultRowD at he
  rw [if_pos (by omega)] at he
  cases he
  exact hrc (by simp [EINVAL])

theorem shp_scalarMult {m m' : Mtx R} {s : R} {rc : Int} {r c : Nat} (h : Shp m r c)
    (he : mtxScalarMultD m s = ok (rc, m')) : Shp m' r c := by
  unfold mtxScalarMultD at he
  obtain ⟨d, -, he⟩ := bind_ok he
  cases he
  exact h

theorem mult_eq {a b c : Mtx R} (h1 : a.cols = b.rows) (h2 : c.rows = a.rows) (h3 : c.cols = b.cols) :
    NoChk.mtxMult a b c = mtxMult a b c := by
  unfold NoChk.mtxMult mtxMult
  rw [if_neg (by omega), if_neg (by omega)]
  refine bind_congr_ok (copy_eq rfl rfl) fun x _ => ?_
  exact bind_congr_ok (copy_eq rfl rfl) fun y _ => rfl

theorem shp_mult {a b c c' : Mtx R} {rc : Int} {r k : Nat} (h : Shp c r k) (he : mtxMult a b c = ok (rc, c')) : Shp c' r k := by
  unfold mtxMult at he
  by_cases h1 : a.cols ≠ b.rows
  · rw [if_pos h1] at he
    cases he
    exact h
  rw [if_neg h1] at he
  by_cases h2 : c.rows ≠ a.rows ∨ c.cols ≠ b.cols
  · rw [if_pos h2] at he
    cases he
    exact h
  rw [if_neg h2] at he
  obtain ⟨x, -, he⟩ := bind_ok he
  obtain ⟨y, -, he⟩ := bind_ok he
  obtain ⟨d, -, he⟩ := bind_ok he
  cases he
  exact h

theorem multD_eq {a b : Mtx R} (h1 : a.cols = b.rows) (h2 : b.rows = b.cols) : NoChk.mtxMultD a b = mtxMultD a b := by
  unfold NoChk.mtxMultD mtxMultD
  rw [if_neg (by omega), if_neg (by omega)]
  exact bind_congr_ok (mult_eq h1 rfl (h1.trans h2)) fun x _ => rfl

theorem trans_eq {junk : Nat → R} {a b : Mtx R} (h1 : a.rows = b.cols) (h2 : a.cols = b.rows) :
    NoChk.mtxTrans junk a b = mtxTrans junk a b := by
  unfold NoChk.mtxTrans mtxTrans
  rw [if_neg (c := a.rows ≠ b.cols ∨ a.cols ≠ b.rows) (by omega)]
  by_cases h0 : a.cols = 0
  · rw [if_pos h0, if_pos h0]
  rw [if_neg h0, if_neg h0]
  refine bind_congr_ok (forN_congr_inv (fun _ s => Shp s.2 b.rows b.cols) (shp_self b) ?_ ?_).1 fun x _ => rfl
  · intro i hi s hs
    refine bind_congr_ok (getRow_eq hi) fun x _ => ?_
    exact bind_congr_ok (setCol_eq (by rw [hs.2, ← h1]; exact hi)) fun y _ => rfl
  · intro i hi s s' hs he
    obtain ⟨⟨rc, d⟩, -, he⟩ := bind_ok he
    obtain ⟨⟨rc', d'⟩, hc, he⟩ := bind_ok he
    cases he
    exact shp_setCol hs hc

theorem shp_trans {junk : Nat → R} {a b b' : Mtx R} {rc : Int} {r c : Nat} (h : Shp b r c)
    (he : mtxTrans junk a b = ok (rc, b')) : Shp b' r c := by
  unfold mtxTrans at he
  by_cases hb : a.rows ≠ b.cols ∨ a.cols ≠ b.rows
  · rw [if_pos hb] at he
    cases he
    exact h
  rw [if_neg hb] at he
  by_cases h0 : a.cols = 0
  · rw [if_pos h0] at he
    cases he
  rw [if_neg h0] at he
  obtain ⟨⟨d, t⟩, hf, he⟩ := bind_ok he
  cases he
  refine forN_ok (fun s => Shp s.2 r c) h ?_ hf
  intro i hi s s' hs he
  obtain ⟨⟨rc, d⟩, -, he⟩ := bind_ok he
  obtain ⟨⟨rc', d'⟩, hc, he⟩ := bind_ok he
  cases he
  exact shp_setCol hs hc

/-! ### Minors, determinant, adjoint -/

theorem deter3_eq {m : Mtx R} {d : R} (h : m.rows = 3) : NoChk.mtxDeter3x3 m d = mtxDeter3x3 m d := by
  unfold NoChk.mtxDeter3x3 mtxDeter3x3
  by_cases h0 : m.rows ≠ m.cols
  · rw [if_pos h0, if_pos h0]
  · rw [if_neg h0, if_neg h0, if_neg (by omega)]

theorem adjoint3_eq {m a : Mtx R} (h : m.rows = 3) (h' : a.rows = 3) : NoChk.mtxAdjoint3x3 m a = mtxAdjoint3x3 m a := by
  unfold NoChk.mtxAdjoint3x3 mtxAdjoint3x3
  by_cases h0 : m.rows ≠ m.cols ∨ a.rows ≠ a.cols
  · rw [if_pos h0, if_pos h0]
  · rw [if_neg h0, if_neg h0, if_neg (by omega)]

theorem reduce_eq {junk : Nat → R} {x0 : R} {m mr : Mtx R} {i j : Nat} (hsq : m.rows ≤ m.cols) (hr : mr.rows = szSub m.rows 1)
    (hc : mr.cols = szSub m.cols 1) (hi : i < m.rows) (hj : j < m.cols) :
    NoChk.mtxReduce junk x0 m mr i j = mtxReduce junk x0 m mr i j := by
  unfold NoChk.mtxReduce mtxReduce
  by_cases h0 : mr.rows = 0
  · rw [if_pos h0, if_pos h0]
  rw [if_neg h0, if_neg h0, if_neg (not_not_intro hr), if_neg (not_not_intro hc), if_neg (by omega)]
  refine bind_congr_ok (forN_congr fun k hk s => forN_congr fun g hg s => ?_) fun x _ => rfl
  obtain ⟨u, x, v⟩ := s
  by_cases hkg : k ≠ i ∧ g ≠ j
  · simp only [if_pos hkg]
    exact bind_congr_ok (get_eq hk (by omega)) fun y _ => rfl
  · simp only [if_neg hkg]

theorem shp_reduce {junk : Nat → R} {x0 : R} {m mr mr' : Mtx R} {i j : Nat} {rc : Int} {r c : Nat} (h : Shp mr r c)
    (he : mtxReduce junk x0 m mr i j = ok (rc, mr')) : Shp mr' r c := by
  unfold mtxReduce at he
  by_cases h0 : mr.rows = 0
  · rw [if_pos h0] at he
    cases he
  rw [if_neg h0] at he
  by_cases h1 : mr.rows ≠ szSub m.rows 1
  · rw [if_pos h1] at he
    cases he
    exact h
  rw [if_neg h1] at he
  by_cases h2 : mr.cols ≠ szSub m.cols 1
  · rw [if_pos h2] at he
    cases he
    exact h
  rw [if_neg h2] at he
  by_cases h3 : i ≥ m.rows ∨ j ≥ m.cols
  · rw [if_pos h3] at he
    cases he
    exact h
  rw [if_neg h3] at he
  obtain ⟨⟨u, x, v⟩, -, he⟩ := bind_ok he
  obtain ⟨⟨rc', t⟩, hf, he⟩ := bind_ok he
  cases he
  exact shp_fromArr h hf

/-- The determinant of a matrix that is square, or has one of the sizes treated apart (whose rows alone decide). -/
theorem deterN_eq (junk : Nat → R) : ∀ (fuel : Nat) (m : Mtx R) (d : R), (m.rows ≠ 1 → m.rows ≠ 2 → m.rows ≠ 3 → m.cols = m.rows) →
    NoChk.mtxDeterN fuel junk m d = mtxDeterN fuel junk m d := by
  intro fuel
  induction fuel with
  | zero => intro m d _; rfl
  | succ fuel ih =>
    intro m d hsq
    unfold NoChk.mtxDeterN mtxDeterN
    by_cases h1 : m.rows = 1
    · rw [if_pos h1, if_pos h1]
    rw [if_neg h1, if_neg h1]
    by_cases h2 : m.rows = 2
    · rw [if_pos h2, if_pos h2]
    rw [if_neg h2, if_neg h2]
    by_cases h3 : m.rows = 3
    · rw [if_pos h3, if_pos h3]
      exact deter3_eq h3
    rw [if_neg h3, if_neg h3]
    have hc := hsq h1 h2 h3
    rw [if_neg (by omega)]
    refine bind_congr_ok (forRet_congr_inv (fun _ s => Shp s.2.2.2 (m.rows - 1) (m.rows - 1)) (fun _ => True) ⟨rfl, rfl⟩ ?_ ?_).1
      fun x _ => rfl
    · rintro g hg ⟨d, dtmp, cur, mr⟩ hs
      refine bind_congr_ok (get_eq (by omega) hg) fun x _ => ?_
      refine bind_congr_ok init_none.1 fun y hy => ?_
      obtain ⟨rc, y⟩ := y
      have hy' := init_none.2 rc y hy
      refine bind_congr_ok (reduce_eq (by omega) ?_ ?_ (by omega) hg) fun z hz => ?_
      · rw [hy'.1, hs.1, szSub_le (by omega)]
      · rw [hy'.2, hs.2, szSub_le (by omega), hc]
      · obtain ⟨rc, z⟩ := z
        have hz' := shp_reduce (shp_self _) hz
        refine bind_congr_ok (ih z dtmp fun _ _ _ => ?_) fun w _ => rfl
        rw [hz'.1, hz'.2, hy'.1, hy'.2, hs.1, hs.2]
    · rintro g hg ⟨d, dtmp, cur, mr⟩ hs c he
      obtain ⟨⟨rc1, x⟩, -, he⟩ := bind_ok he
      obtain ⟨⟨rc2, y⟩, hy, he⟩ := bind_ok he
      obtain ⟨⟨rc3, z⟩, hz, he⟩ := bind_ok he
      obtain ⟨⟨rc4, w⟩, -, he⟩ := bind_ok he
      have hy' := init_none.2 rc2 y hy
      rw [hs.1, hs.2] at hy'
      have hz' := shp_reduce hy' hz
      by_cases hrc : rc4 ≠ 0
      · simp only [if_pos hrc] at he
        cases he
        trivial
      · simp only [if_neg hrc] at he
        cases he
        exact hz'

theorem deter_eq {junk : Nat → R} {m : Mtx R} {d : R} (h : m.rows ≠ 1 → m.rows ≠ 2 → m.rows ≠ 3 → m.cols = m.rows) :
    NoChk.mtxDeter junk m d = mtxDeter junk m d := deterN_eq junk _ m d h

theorem adjoint_eq {junk : Nat → R} {m a : Mtx R} (hsq : m.cols = m.rows) (hr : a.rows = m.rows) (hc : a.cols = m.cols) :
    NoChk.mtxAdjoint junk m a = mtxAdjoint junk m a := by
  unfold NoChk.mtxAdjoint mtxAdjoint
  by_cases h3 : m.rows = 3
  · rw [if_pos h3, if_pos h3]
    exact adjoint3_eq h3 (hr.trans h3)
  rw [if_neg h3, if_neg h3, if_neg (c := m.rows ≠ m.cols) (by omega)]
  by_cases h1 : m.cols = 1
  · rw [if_pos h1, if_pos h1]
  rw [if_neg h1, if_neg h1]
  have step : ∀ i, i < m.cols → ∀ j, j < m.cols → ∀ s : R × Mtx R × Mtx R,
      Shp s.2.1 (m.cols - 1) (m.cols - 1) ∧ Shp s.2.2 m.rows m.cols →
      (do
        let (d, mr, ma) := s
        let sign : R := if (i + j) % 2 ≠ 0 then lit (-1) else lit 1
        let (_, mr) ← NoChk.mtxReduce junk (junk 0) m mr i j
        let (_, d) ← NoChk.mtxDeter junk mr d
        let d := d * sign
        let (_, ma) ← NoChk.mtxSet ma i j d
        return (d, mr, ma) : Out (R × Mtx R × Mtx R)) = (do
        let (d, mr, ma) := s
        let sign : R := if (i + j) % 2 ≠ 0 then lit (-1) else lit 1
        let (_, mr) ← mtxReduce junk (junk 0) m mr i j
        let (_, d) ← mtxDeter junk mr d
        let d := d * sign
        let (_, ma) ← mtxSet ma i j d
        return (d, mr, ma)) := by
    rintro i hi j hj ⟨d, mr, ma⟩ ⟨hs, hs'⟩
    refine bind_congr_ok (reduce_eq (by omega) ?_ ?_ (by omega) hj) fun z hz => ?_
    · rw [hs.1, szSub_le (by omega), hsq]
    · rw [hs.2, szSub_le (by omega)]
    · obtain ⟨rc, z⟩ := z
      have hz' := shp_reduce hs hz
      refine bind_congr_ok (deter_eq fun _ _ _ => by rw [hz'.1, hz'.2]) fun w _ => ?_
      exact bind_congr_ok (set_eq (by rw [hs'.1]; omega) (by rw [hs'.2]; omega)) fun v _ => rfl
  have keep : ∀ i j, ∀ s s' : R × Mtx R × Mtx R,
      Shp s.2.1 (m.cols - 1) (m.cols - 1) ∧ Shp s.2.2 m.rows m.cols →
      (do
        let (d, mr, ma) := s
        let sign : R := if (i + j) % 2 ≠ 0 then lit (-1) else lit 1
        let (_, mr) ← mtxReduce junk (junk 0) m mr i j
        let (_, d) ← mtxDeter junk mr d
        let d := d * sign
        let (_, ma) ← mtxSet ma i j d
        return (d, mr, ma) : Out (R × Mtx R × Mtx R)) = ok s' →
      Shp s'.2.1 (m.cols - 1) (m.cols - 1) ∧ Shp s'.2.2 m.rows m.cols := by
    rintro i j ⟨d, mr, ma⟩ s' ⟨hs, hs'⟩ he
    obtain ⟨⟨rc1, x⟩, hx, he⟩ := bind_ok he
    obtain ⟨⟨rc2, y⟩, -, he⟩ := bind_ok he
    obtain ⟨⟨rc3, z⟩, hz, he⟩ := bind_ok he
    cases he
    exact ⟨shp_reduce hs hx, shp_set hs' hz⟩
  refine bind_congr_ok (forN_congr_inv
    (fun _ s => Shp s.2.1 (m.cols - 1) (m.cols - 1) ∧ Shp s.2.2 m.rows m.cols) ⟨⟨rfl, rfl⟩, ⟨hr, hc⟩⟩ ?_ ?_).1 fun x _ => rfl
  · intro i hi s hs
    exact (forN_congr_inv (fun _ s => Shp s.2.1 (m.cols - 1) (m.cols - 1) ∧ Shp s.2.2 m.rows m.cols) hs
      (fun j hj t ht => step i hi j hj t ht) fun j _ t t' ht he => keep i j t t' ht he).1
  · intro i hi s s' hs he
    exact forN_ok (fun s => Shp s.2.1 (m.cols - 1) (m.cols - 1) ∧ Shp s.2.2 m.rows m.cols) hs
      (fun j _ t t' ht he => keep i j t t' ht he) he

/-! ### Elimination and inverse -/

/-- The row loop of an elimination that reports success. -/
theorem elimLoop_ok {i j : Nat} {y : R} : ∀ (n : Nat) (mg mi : Mtx R) (x : R) (p : Nat) (r : Int × Mtx R × Mtx R),
    mg.rows - p = n → j < mg.cols → gaussElimLoop mg mi i j x y p = ok r → r.1 = 0 →
    NoChk.gaussElimLoop mg mi i j x y p = ok r := by
  intro n
  induction n using Nat.strong_induction_on with
  | _ n ih =>
    intro mg mi x p r hn hj h hr
    rw [gaussElimLoop] at h
    rw [NoChk.gaussElimLoop]
    by_cases hp : p < mg.rows
    swap
    · rw [if_neg hp] at h ⊢
      exact h
    rw [if_pos hp] at h ⊢
    simp only [] at h ⊢
    by_cases hpe : (if p = i then p + 1 else p) = mg.rows
    · rw [if_pos hpe] at h ⊢
      exact h
    rw [if_neg hpe] at h ⊢
    have hp' : (if p = i then p + 1 else p) < mg.rows := by
      by_cases hpi : p = i
      · rw [if_pos hpi] at hpe ⊢
        omega
      · rw [if_neg hpi] at hpe ⊢
        omega
    have hpp : p ≤ (if p = i then p + 1 else p) := by
      by_cases hpi : p = i
      · rw [if_pos hpi]
        omega
      · rw [if_neg hpi]
    generalize (if p = i then p + 1 else p) = q at h hp' hpp ⊢
    rw [get_eq hp' hj]
    obtain ⟨⟨rc, x'⟩, hx, h⟩ := bind_ok h
    rw [hx]
    simp only [ok_bind] at h ⊢
    by_cases hnz : isNonzeroE x' = true
    · rw [if_pos hnz] at h ⊢
      obtain ⟨⟨rc1, mg'⟩, h1, h⟩ := bind_ok h
      by_cases hrc1 : rc1 ≠ 0
      · simp only [if_pos hrc1] at h
        cases h
        simp [EINVAL] at hr
      simp only [if_neg hrc1] at h
      obtain ⟨⟨rc2, mi'⟩, h2, h⟩ := bind_ok h
      by_cases hrc2 : rc2 ≠ 0
      · simp only [if_pos hrc2] at h
        cases h
        simp [EINVAL] at hr
      simp only [if_neg hrc2] at h
      have b1 := sumRowsScaled_rc h1 hrc1
      have b2 := sumRowsScaled_rc h2 hrc2
      rw [sumRowsScaled_eq b1.1 b1.2, h1]
      simp only [ok_bind, if_neg hrc1]
      rw [sumRowsScaled_eq b2.1 b2.2, h2]
      simp only [ok_bind, if_neg hrc2]
      have hs := shp_sumRowsScaled (shp_self mg) h1
      exact ih (mg.rows - (q + 1)) (by omega) ⟨mg.rows, mg'.cols, mg'.data⟩ mi' x' (q + 1) r rfl (by
        show j < mg'.cols
        rw [hs.2]
        exact hj) h hr
    · rw [if_neg hnz] at h ⊢
      exact ih (mg.rows - (q + 1)) (by omega) mg mi x' (q + 1) r rfl hj h hr

theorem elimBody_ok {x0 : R} {mg mi : Mtx R} {i j : Nat} {r : Int × Mtx R × Mtx R} (h : gaussElimBody x0 mg mi i j = ok r)
    (hr : r.1 = 0) : NoChk.gaussElimBody x0 mg mi i j = ok r := by
  unfold gaussElimBody at h
  unfold NoChk.gaussElimBody
  obtain ⟨⟨rc, y⟩, hy, h⟩ := bind_ok h
  by_cases hb : i < mg.rows ∧ j < mg.cols
  · have hrc := get_rc hb.1 hb.2 hy
    subst hrc
    rw [get_eq hb.1 hb.2, hy]
    simp only [ok_bind, ne_eq, not_true_eq_false, if_false] at h ⊢
    by_cases hz : isZeroE y = true
    · rw [if_pos hz] at h ⊢
      exact h
    · rw [if_neg hz] at h ⊢
      exact elimLoop_ok _ mg mi x0 0 r rfl hb.2 h hr
  · unfold mtxGet at hy
    rw [if_pos (by omega)] at hy
    cases hy
    simp only [] at h
    rw [if_pos (by simp [EINVAL])] at h
    cases h
    simp [EINVAL] at hr

theorem elimLoop_eq {i j : Nat} {y : R} : ∀ (n : Nat) (mg mi : Mtx R) (x : R) (p : Nat),
    mg.rows - p = n → j < mg.cols → i < mg.cols → i < mi.cols → mg.rows ≤ mi.rows →
    NoChk.gaussElimLoop mg mi i j x y p = gaussElimLoop mg mi i j x y p ∧
    ∀ rc a b, gaussElimLoop mg mi i j x y p = ok (rc, a, b) → Shp a mg.rows mg.cols ∧ Shp b mi.rows mi.cols := by
  intro n
  induction n using Nat.strong_induction_on with
  | _ n ih =>
    intro mg mi x p hn hj hi hi' hrows
    rw [gaussElimLoop, NoChk.gaussElimLoop]
    by_cases hp : p < mg.rows
    swap
    · rw [if_neg hp, if_neg hp]
      refine ⟨rfl, fun rc a b h => ?_⟩
      cases h
      exact ⟨shp_self _, shp_self _⟩
    rw [if_pos hp, if_pos hp]
    simp only []
    by_cases hpe : (if p = i then p + 1 else p) = mg.rows
    · rw [if_pos hpe, if_pos hpe]
      refine ⟨rfl, fun rc a b h => ?_⟩
      cases h
      exact ⟨shp_self _, shp_self _⟩
    rw [if_neg hpe, if_neg hpe]
    have hp' : (if p = i then p + 1 else p) < mg.rows := by
      by_cases hpi : p = i
      · rw [if_pos hpi] at hpe ⊢
        omega
      · rw [if_neg hpi] at hpe ⊢
        omega
    have hpp : p ≤ (if p = i then p + 1 else p) := by
      by_cases hpi : p = i
      · rw [if_pos hpi]
        omega
      · rw [if_neg hpi]
    generalize (if p = i then p + 1 else p) = q at hp' hpp ⊢
    rw [get_eq hp' hj]
    cases hx : mtxGet mg q j x with
    | ub => exact ⟨rfl, fun rc a b h => by simp at h⟩
    | ok z =>
      obtain ⟨rc, x'⟩ := z
      simp only [ok_bind]
      by_cases hnz : isNonzeroE x' = true
      · rw [if_pos hnz, if_pos hnz, sumRowsScaled_eq hp' hi]
        cases h1 : mtxSumRowsScaledD mg q i (-(x' / y)) with
        | ub => exact ⟨rfl, fun rc a b h => by simp at h⟩
        | ok z =>
          obtain ⟨rc1, mg'⟩ := z
          have hs1 := shp_sumRowsScaled (shp_self mg) h1
          simp only [ok_bind]
          by_cases hrc1 : rc1 ≠ 0
          · rw [if_pos hrc1, if_pos hrc1]
            refine ⟨rfl, fun rc a b h => ?_⟩
            cases h
            exact ⟨hs1, shp_self _⟩
          rw [if_neg hrc1, if_neg hrc1, sumRowsScaled_eq (by omega) hi']
          cases h2 : mtxSumRowsScaledD mi q i (-(x' / y)) with
          | ub => exact ⟨rfl, fun rc a b h => by simp at h⟩
          | ok z =>
            obtain ⟨rc2, mi'⟩ := z
            have hs2 := shp_sumRowsScaled (shp_self mi) h2
            simp only [ok_bind]
            by_cases hrc2 : rc2 ≠ 0
            · rw [if_pos hrc2, if_pos hrc2]
              refine ⟨rfl, fun rc a b h => ?_⟩
              cases h
              exact ⟨hs1, hs2⟩
            rw [if_neg hrc2, if_neg hrc2]
            have := ih (mg.rows - (q + 1)) (by omega) ⟨mg.rows, mg'.cols, mg'.data⟩ mi' x' (q + 1) rfl
              (by show j < mg'.cols; rw [hs1.2]; exact hj) (by show i < mg'.cols; rw [hs1.2]; exact hi)
              (by rw [hs2.2]; exact hi') (by show mg.rows ≤ mi'.rows; rw [hs2.1]; exact hrows)
            refine ⟨this.1, fun rc a b h => ?_⟩
            obtain ⟨ha, hb⟩ := this.2 rc a b h
            exact ⟨⟨ha.1, ha.2.trans hs1.2⟩, ⟨hb.1.trans hs2.1, hb.2.trans hs2.2⟩⟩
      · rw [if_neg hnz, if_neg hnz]
        exact ih (mg.rows - (q + 1)) (by omega) mg mi x' (q + 1) rfl hj hi hi' hrows

theorem elimBody_eq {x0 : R} {mg mi : Mtx R} {i j : Nat} (hir : i < mg.rows) (hj : j < mg.cols) (hi : i < mg.cols)
    (hi' : i < mi.cols) (hrows : mg.rows ≤ mi.rows) :
    NoChk.gaussElimBody x0 mg mi i j = gaussElimBody x0 mg mi i j ∧
    ∀ rc a b, gaussElimBody x0 mg mi i j = ok (rc, a, b) → Shp a mg.rows mg.cols ∧ Shp b mi.rows mi.cols := by
  unfold gaussElimBody NoChk.gaussElimBody
  rw [get_eq hir hj]
  cases hx : mtxGet mg i j x0 with
  | ub => exact ⟨rfl, fun rc a b h => by simp at h⟩
  | ok z =>
    obtain ⟨rc, y⟩ := z
    simp only [ok_bind]
    by_cases hrc : rc ≠ 0
    · rw [if_pos hrc, if_pos hrc]
      refine ⟨rfl, fun rc a b h => ?_⟩
      cases h
      exact ⟨shp_self _, shp_self _⟩
    rw [if_neg hrc, if_neg hrc]
    by_cases hz : isZeroE y = true
    · rw [if_pos hz, if_pos hz]
      refine ⟨rfl, fun rc a b h => ?_⟩
      cases h
      exact ⟨shp_self _, shp_self _⟩
    rw [if_neg hz, if_neg hz]
    exact elimLoop_eq _ mg mi x0 0 rfl hj hi hi' hrows

theorem normBody_ok {x0 : R} {mn mi : Mtx R} {i j : Nat} {r : Int × Mtx R × Mtx R} (h : normElemBody x0 mn mi i j = ok r)
    (hr : r.1 = 0) : NoChk.normElemBody x0 mn mi i j = ok r := by
  unfold normElemBody at h
  unfold NoChk.normElemBody
  obtain ⟨⟨rc, y⟩, hy, h⟩ := bind_ok h
  by_cases hb : i < mn.rows ∧ j < mn.cols
  · have hrc := get_rc hb.1 hb.2 hy
    subst hrc
    rw [get_eq hb.1 hb.2, hy]
    simp only [ok_bind, ne_eq, not_true_eq_false, if_false] at h ⊢
    by_cases hz : isZeroE y = true
    · rw [if_pos hz] at h ⊢
      exact h
    rw [if_neg hz] at h ⊢
    obtain ⟨⟨rc1, mn'⟩, h1, h⟩ := bind_ok h
    by_cases hrc1 : ¬ rc1 = 0
    · simp only [if_pos hrc1] at h
      cases h
      simp [EINVAL] at hr
    simp only [if_neg hrc1] at h
    obtain ⟨⟨rc2, mi'⟩, h2, h⟩ := bind_ok h
    by_cases hrc2 : ¬ rc2 = 0
    · simp only [if_pos hrc2] at h
      cases h
      simp [EINVAL] at hr
    rw [scalarMultRow_eq hb.1, h1]
    simp only [ok_bind, if_neg hrc1]
    rw [scalarMultRow_eq (scalarMultRow_rc h2 hrc2), h2]
    exact h
  · unfold mtxGet at hy
    rw [if_pos (by omega)] at hy
    cases hy
    simp only [] at h
    rw [if_pos (by simp [EINVAL])] at h
    cases h
    simp [EINVAL] at hr

theorem normBody_eq {x0 : R} {mn mi : Mtx R} {i j : Nat} (hi : i < mn.rows) (hj : j < mn.cols) (hi' : i < mi.rows) :
    NoChk.normElemBody x0 mn mi i j = normElemBody x0 mn mi i j ∧
    ∀ rc a b, normElemBody x0 mn mi i j = ok (rc, a, b) → Shp a mn.rows mn.cols ∧ Shp b mi.rows mi.cols := by
  unfold normElemBody NoChk.normElemBody
  rw [get_eq hi hj]
  cases hx : mtxGet mn i j x0 with
  | ub => exact ⟨rfl, fun rc a b h => by simp at h⟩
  | ok z =>
    obtain ⟨rc, y⟩ := z
    simp only [ok_bind]
    by_cases hrc : rc ≠ 0
    · rw [if_pos hrc, if_pos hrc]
      refine ⟨rfl, fun rc a b h => ?_⟩
      cases h
      exact ⟨shp_self _, shp_self _⟩
    rw [if_neg hrc, if_neg hrc]
    by_cases hz : isZeroE y = true
    · rw [if_pos hz, if_pos hz]
      refine ⟨rfl, fun rc a b h => ?_⟩
      cases h
      exact ⟨shp_self _, shp_self _⟩
    rw [if_neg hz, if_neg hz, scalarMultRow_eq hi]
    cases h1 : mtxScalarMultRowD mn i (lit 1 / y) with
    | ub => exact ⟨rfl, fun rc a b h => by simp at h⟩
    | ok z =>
      obtain ⟨rc1, mn'⟩ := z
      have hs1 := shp_scalarMultRow (shp_self mn) h1
      simp only [ok_bind]
      by_cases hrc1 : rc1 ≠ 0
      · rw [if_pos hrc1, if_pos hrc1]
        refine ⟨rfl, fun rc a b h => ?_⟩
        cases h
        exact ⟨hs1, shp_self _⟩
      rw [if_neg hrc1, if_neg hrc1, scalarMultRow_eq hi']
      cases h2 : mtxScalarMultRowD mi i (lit 1 / y) with
      | ub => exact ⟨rfl, fun rc a b h => by simp at h⟩
      | ok z =>
        obtain ⟨rc2, mi'⟩ := z
        have hs2 := shp_scalarMultRow (shp_self mi) h2
        refine ⟨rfl, fun rc a b h => ?_⟩
        simp only [ok_bind] at h
        by_cases hrc2 : rc2 ≠ 0
        · rw [if_pos hrc2] at h
          cases h
          exact ⟨hs1, hs2⟩
        · rw [if_neg hrc2] at h
          cases h
          exact ⟨hs1, hs2⟩

theorem pivot_eq {rows k : Nat} {v : List R} {y : R} {mg mi : Mtx R} (hr : rows = mg.rows) (hc : mg.cols = mg.rows)
    (hk : k < rows) (hrows : mg.rows ≤ mi.rows) :
    NoChk.gaussPivot rows k v y mg mi = gaussPivot rows k v y mg mi ∧
    ∀ v' y' a b, gaussPivot rows k v y mg mi = ok (v', y', a, b) → Shp a mg.rows mg.cols ∧ Shp b mi.rows mi.cols := by
  unfold NoChk.gaussPivot gaussPivot
  rw [getCol_eq (by omega)]
  cases hx : mtxGetCol mg k v with
  | ub => exact ⟨rfl, fun v' y' a b h => by simp at h⟩
  | ok z =>
    obtain ⟨rc, w⟩ := z
    simp only [ok_bind]
    have key := forRet_congr_inv (n := rows) (s := y)
      (f := fun q (y : R) => (do
        let (_, y) ← NoChk.mtxGet mg q q y
        let vq ← rd w q
        if isNonzeroE vq then
          if q < k ∧ isNonzeroE y = true then return Ctl.next y
          else do
            let (_, mg) ← NoChk.mtxSumRowsD mg k q
            let (_, mi) ← NoChk.mtxSumRowsD mi k q
            return Ctl.ret (w, y, mg, mi)
        else return Ctl.next y : Out (Ctl R (List R × R × Mtx R × Mtx R))))
      (g := fun q (y : R) => (do
        let (_, y) ← mtxGet mg q q y
        let vq ← rd w q
        if isNonzeroE vq then
          if q < k ∧ isNonzeroE y = true then return Ctl.next y
          else do
            let (_, mg) ← mtxSumRowsD mg k q
            let (_, mi) ← mtxSumRowsD mi k q
            return Ctl.ret (w, y, mg, mi)
        else return Ctl.next y : Out (Ctl R (List R × R × Mtx R × Mtx R))))
      (fun _ _ => True) (fun r => Shp r.2.2.1 mg.rows mg.cols ∧ Shp r.2.2.2 mi.rows mi.cols) trivial ?_ ?_
    · refine ⟨bind_congr_ok key.1 fun a _ => rfl, fun v' y' a b h => ?_⟩
      obtain ⟨c, hc, h⟩ := bind_ok h
      have := key.2 c hc
      cases c with
      | next t => cases h; exact ⟨shp_self _, shp_self _⟩
      | ret t => cases h; exact this
    · intro q hq t _
      refine bind_congr_ok (get_eq (by omega) (by omega)) fun x _ => ?_
      refine bind_congr_ok rfl fun vq _ => ?_
      by_cases h1 : isNonzeroE vq = true
      · rw [if_pos h1, if_pos h1]
        by_cases h2 : q < k ∧ isNonzeroE x.2 = true
        · rw [if_pos h2, if_pos h2]
        · rw [if_neg h2, if_neg h2]
          refine bind_congr_ok (sumRows_eq (by omega) (by omega)) fun a _ => ?_
          exact bind_congr_ok (sumRows_eq (by omega) (by omega)) fun b _ => rfl
      · rw [if_neg h1, if_neg h1]
    · intro q hq t _ c hc
      obtain ⟨⟨rc, x⟩, -, hc⟩ := bind_ok hc
      obtain ⟨vq, -, hc⟩ := bind_ok hc
      by_cases h1 : isNonzeroE vq = true
      · rw [if_pos h1] at hc
        by_cases h2 : q < k ∧ isNonzeroE x = true
        · rw [if_pos h2] at hc
          cases hc
          trivial
        · rw [if_neg h2] at hc
          obtain ⟨⟨rc1, a⟩, ha, hc⟩ := bind_ok hc
          obtain ⟨⟨rc2, b⟩, hb, hc⟩ := bind_ok hc
          cases hc
          exact ⟨shp_sumRows (shp_self _) ha, shp_sumRows (shp_self _) hb⟩
      · rw [if_neg h1] at hc
        cases hc
        trivial

theorem reducStep_eq {junk : Nat → R} {n k r c : Nat} {s : GaussState R} (hg : Shp s.mg n n) (hi : Shp s.mi r c)
    (hr : n ≤ r) (hc : n ≤ c) (hk : k < n) :
    NoChk.gaussReducStep junk n k s = gaussReducStep junk n k s ∧
    ∀ t, gaussReducStep junk n k s = ok t → Shp t.mg n n ∧ Shp t.mi r c := by
  unfold NoChk.gaussReducStep gaussReducStep
  rw [get_eq (by rw [hg.1]; exact hk) (by rw [hg.2]; exact hk)]
  cases hx : mtxGet s.mg k k s.x with
  | ub => exact ⟨rfl, fun t h => by simp at h⟩
  | ok z =>
    obtain ⟨rc, x⟩ := z
    simp only [ok_bind]
    have piv : (if isZeroE x = true then NoChk.gaussPivot n k s.v s.y s.mg s.mi else ok (s.v, s.y, s.mg, s.mi)) =
        (if isZeroE x = true then gaussPivot n k s.v s.y s.mg s.mi else ok (s.v, s.y, s.mg, s.mi)) ∧
        ∀ v' y' a b, (if isZeroE x = true then gaussPivot n k s.v s.y s.mg s.mi else ok (s.v, s.y, s.mg, s.mi)) =
          ok (v', y', a, b) → Shp a n n ∧ Shp b r c := by
      by_cases hz : isZeroE x = true
      · rw [if_pos hz, if_pos hz]
        have := pivot_eq (rows := n) (k := k) (v := s.v) (y := s.y) (mg := s.mg) (mi := s.mi) hg.1.symm (by rw [hg.1, hg.2]) hk
          (by rw [hg.1, hi.1]; exact hr)
        rw [hg.1, hg.2, hi.1, hi.2] at this
        exact this
      · rw [if_neg hz, if_neg hz]
        refine ⟨rfl, fun v' y' a b h => ?_⟩
        cases h
        exact ⟨hg, hi⟩
    rw [piv.1]
    cases hp : (if isZeroE x = true then gaussPivot n k s.v s.y s.mg s.mi else ok (s.v, s.y, s.mg, s.mi)) with
    | ub => exact ⟨rfl, fun t h => by simp at h⟩
    | ok z =>
      obtain ⟨v', y', a, b⟩ := z
      obtain ⟨ha, hb⟩ := piv.2 v' y' a b hp
      simp only [ok_bind]
      have e1 := elimBody_eq (x0 := junk 0) (mg := a) (mi := b) (i := k) (j := k) (by rw [ha.1]; exact hk) (by rw [ha.2]; exact hk)
        (by rw [ha.2]; exact hk) (by rw [hb.2]; omega) (by rw [ha.1, hb.1]; exact hr)
      rw [ha.1, ha.2, hb.1, hb.2] at e1
      unfold NoChk.mtxGaussElimD mtxGaussElimD NoChk.mtxNormElemD mtxNormElemD
      rw [e1.1]
      cases he : gaussElimBody (junk 0) a b k k with
      | ub => exact ⟨rfl, fun t h => by simp at h⟩
      | ok z =>
        obtain ⟨rc1, a1, b1⟩ := z
        obtain ⟨ha1, hb1⟩ := e1.2 rc1 a1 b1 he
        simp only [ok_bind]
        have e2 := normBody_eq (x0 := junk 0) (mn := a1) (mi := b1) (i := k) (j := k) (by rw [ha1.1]; exact hk)
          (by rw [ha1.2]; exact hk) (by rw [hb1.1]; omega)
        rw [ha1.1, ha1.2, hb1.1, hb1.2] at e2
        rw [e2.1]
        refine ⟨rfl, fun t h => ?_⟩
        obtain ⟨⟨rc2, a2, b2⟩, hn, h⟩ := bind_ok h
        cases h
        exact e2.2 rc2 a2 b2 hn

/-- Elimination of a square matrix, the companion matrix having at least as many rows and columns. -/
theorem gaussReduc_eq {junk : Nat → R} {m mi mg : Mtx R} (hsq : m.cols = m.rows) (hgr : mg.rows = m.rows) (hgc : mg.cols = m.cols)
    (hr : m.rows ≤ mi.rows) (hc : m.rows ≤ mi.cols) :
    NoChk.mtxGaussReduc junk m mi mg = mtxGaussReduc junk m mi mg ∧
    ∀ rc a b, mtxGaussReduc junk m mi mg = ok (rc, a, b) → Shp a mi.rows mi.cols ∧ Shp b m.rows m.rows := by
  unfold NoChk.mtxGaussReduc mtxGaussReduc
  by_cases h0 : m.rows = 0
  · rw [if_pos h0, if_pos h0]
    exact ⟨rfl, fun rc a b h => by simp at h⟩
  rw [if_neg h0, if_neg h0, copy_eq hgr hgc]
  cases hcp : mtxCopy mg m with
  | ub => exact ⟨rfl, fun rc a b h => by simp at h⟩
  | ok z =>
    obtain ⟨rc, g⟩ := z
    have hg : Shp g m.rows m.rows := shp_copy ⟨hgr, hgc.trans hsq⟩ hcp
    simp only [ok_bind]
    have key := forN_congr_inv (n := m.rows) (f := fun k s => NoChk.gaussReducStep junk m.rows k s)
      (g := fun k s => gaussReducStep junk m.rows k s)
      (s := (⟨junk 0, junk 0, junkArr junk m.rows, g, mi⟩ : GaussState R))
      (fun _ s => Shp s.mg m.rows m.rows ∧ Shp s.mi mi.rows mi.cols) ⟨hg, shp_self mi⟩
      (fun k hk s hs => (reducStep_eq hs.1 hs.2 hr hc hk).1) (fun k hk s s' hs he => (reducStep_eq hs.1 hs.2 hr hc hk).2 s' he)
    refine ⟨bind_congr_ok key.1 fun a _ => rfl, fun rc a b h => ?_⟩
    obtain ⟨s, hs, h⟩ := bind_ok h
    cases h
    exact ⟨(key.2 s hs).2, (key.2 s hs).1⟩

theorem inv3_eq {x0 : R} {m mi : Mtx R} (h : m.rows = 3) (h1 : mi.rows = 3) (h2 : mi.cols = m.cols) :
    NoChk.mtxInv3x3 x0 m mi = mtxInv3x3 x0 m mi := by
  unfold NoChk.mtxInv3x3 mtxInv3x3
  by_cases h0 : m.rows ≠ m.cols ∨ mi.rows ≠ mi.cols
  · rw [if_pos h0, if_pos h0]
  rw [if_neg h0, if_neg h0, if_neg (by omega), if_neg (by omega), if_neg (by omega)]
  refine bind_congr_ok (deter3_eq h) fun x _ => ?_
  obtain ⟨rc, d⟩ := x
  by_cases hrc : rc ≠ 0
  · simp only [if_pos hrc]
  simp only [if_neg hrc]
  refine bind_congr_ok (adjoint3_eq h h1) fun y _ => ?_
  obtain ⟨rc1, a⟩ := y
  by_cases hrc1 : rc1 ≠ 0
  · simp only [if_pos hrc1]
  simp only [if_neg hrc1]
  by_cases hd : CReal.ne d (lit 0) = true
  · rw [if_pos hd, if_pos hd]
  · rw [if_neg hd, if_neg hd]
    exact bind_congr_ok init_identity.1 fun z _ => rfl

theorem inv_eq {junk : Nat → R} {m mi : Mtx R} (hr : mi.rows = m.rows) (hc : mi.cols = m.cols) :
    NoChk.mtxInv junk m mi = mtxInv junk m mi := by
  unfold NoChk.mtxInv mtxInv
  by_cases h3 : m.rows = 3
  · rw [if_pos h3, if_pos h3]
    exact inv3_eq h3 (by omega) hc
  rw [if_neg h3, if_neg h3]
  by_cases h0 : m.rows ≠ m.cols ∨ mi.rows ≠ mi.cols
  · rw [if_pos h0, if_pos h0]
  rw [if_neg h0, if_neg h0, if_neg (c := m.rows ≠ mi.rows) (by omega), if_neg (c := m.cols ≠ mi.cols) (by omega)]
  by_cases hz : mi.rows = 0
  · rw [if_pos hz, if_pos hz]
  rw [if_neg hz, if_neg hz]
  refine bind_congr_ok (copy_eq hr hc) fun x hx => ?_
  obtain ⟨rc, t⟩ := x
  have ht : Shp t m.rows m.cols := shp_copy (a := Mtx.uninit junk mi.rows mi.cols) ⟨hr, hc⟩ hx
  by_cases hrc : rc ≠ 0
  · simp only [if_pos hrc]
  simp only [if_neg hrc]
  refine bind_congr_ok init_identity.1 fun y hy => ?_
  obtain ⟨rc1, e⟩ := y
  have he : Shp e m.rows m.cols := by
    have := init_identity.2 rc1 e hy
    rw [hr, hc] at this
    exact this
  by_cases hrc1 : rc1 ≠ 0
  · simp only [if_pos hrc1]
  simp only [if_neg hrc1]
  refine bind_congr_ok (deter_eq fun _ _ _ => by omega) fun d _ => ?_
  obtain ⟨rc2, d⟩ := d
  by_cases hd : CReal.eq d (lit 0) = true
  · simp only [if_pos hd]
  simp only [if_neg hd]
  refine bind_congr_ok (gaussReduc_eq (by omega) ht.1 ht.2 (by rw [he.1]) (by rw [he.2]; omega)).1 fun w _ => rfl

theorem shp_adjoint3 {m a a' : Mtx R} {rc : Int} {r c : Nat} (h : Shp a r c) (he : mtxAdjoint3x3 m a = ok (rc, a')) :
    Shp a' r c := by
  unfold mtxAdjoint3x3 at he
  by_cases h0 : m.rows ≠ m.cols ∨ a.rows ≠ a.cols
  · rw [if_pos h0] at he
    cases he
    exact h
  rw [if_neg h0] at he
  by_cases h1 : m.rows ≠ 3 ∨ a.rows ≠ 3
  · rw [if_pos h1] at he
    cases he
    exact h
  rw [if_neg h1] at he
  iterate 18 obtain ⟨_, -, he⟩ := bind_ok he
  cases he
  exact h

theorem shp_inv {junk : Nat → R} {m mi mi' : Mtx R} {rc : Int} (hr : mi.rows = m.rows) (hc : mi.cols = m.cols)
    (he : mtxInv junk m mi = ok (rc, mi')) : Shp mi' mi.rows mi.cols := by
  unfold mtxInv at he
  by_cases h3 : m.rows = 3
  · rw [if_pos h3] at he
    unfold mtxInv3x3 at he
    by_cases h0 : m.rows ≠ m.cols ∨ mi.rows ≠ mi.cols
    · rw [if_pos h0] at he
      cases he
      exact shp_self _
    rw [if_neg h0, if_neg (by omega), if_neg (by omega), if_neg (by omega)] at he
    obtain ⟨⟨rc1, d⟩, -, he⟩ := bind_ok he
    by_cases hrc1 : rc1 ≠ 0
    · simp only [if_pos hrc1] at he
      cases he
      exact shp_self _
    simp only [if_neg hrc1] at he
    obtain ⟨⟨rc2, a⟩, ha, he⟩ := bind_ok he
    have ha' := shp_adjoint3 (shp_self mi) ha
    by_cases hrc2 : rc2 ≠ 0
    · simp only [if_pos hrc2] at he
      cases he
      exact ha'
    simp only [if_neg hrc2] at he
    by_cases hd : CReal.ne d (lit 0) = true
    · rw [if_pos hd] at he
      obtain ⟨⟨rc3, b⟩, hb, he⟩ := bind_ok he
      cases he
      exact shp_scalarMult ha' hb
    · rw [if_neg hd] at he
      obtain ⟨⟨rc3, b⟩, hb, he⟩ := bind_ok he
      have hb' := init_identity.2 rc3 b hb
      rw [ha'.1, ha'.2] at hb'
      by_cases hrc3 : rc3 ≠ 0
      · simp only [if_pos hrc3] at he
        cases he
        exact hb'
      · simp only [if_neg hrc3] at he
        cases he
        exact hb'
  rw [if_neg h3] at he
  by_cases h0 : m.rows ≠ m.cols ∨ mi.rows ≠ mi.cols
  · rw [if_pos h0] at he
    cases he
    exact shp_self _
  rw [if_neg h0, if_neg (c := m.rows ≠ mi.rows) (by omega), if_neg (c := m.cols ≠ mi.cols) (by omega)] at he
  by_cases hz : mi.rows = 0
  · rw [if_pos hz] at he
    cases he
  rw [if_neg hz] at he
  obtain ⟨⟨rc1, t⟩, ht, he⟩ := bind_ok he
  have ht' : Shp t m.rows m.cols := shp_copy (a := Mtx.uninit junk mi.rows mi.cols) ⟨hr, hc⟩ ht
  by_cases hrc1 : rc1 ≠ 0
  · simp only [if_pos hrc1] at he
    cases he
    exact shp_self _
  simp only [if_neg hrc1] at he
  obtain ⟨⟨rc2, e⟩, hee, he⟩ := bind_ok he
  have he' := init_identity.2 rc2 e hee
  by_cases hrc2 : rc2 ≠ 0
  · simp only [if_pos hrc2] at he
    cases he
    exact he'
  simp only [if_neg hrc2] at he
  obtain ⟨⟨rc3, d⟩, -, he⟩ := bind_ok he
  by_cases hd : CReal.eq d (lit 0) = true
  · simp only [if_pos hd] at he
    cases he
    exact he'
  simp only [if_neg hd] at he
  obtain ⟨⟨rc4, a, b⟩, hg, he⟩ := bind_ok he
  cases he
  have := ((gaussReduc_eq (by omega) ht'.1 ht'.2 (by rw [he'.1, hr]) (by rw [he'.2, hc]; omega)).2 rc4 a b hg).1
  exact ⟨this.1.trans he'.1, this.2.trans he'.2⟩

theorem wedge_eq {junk : Nat → R} {m : Mtx R} {v : Vec R} (h1 : v.sz = m.cols) (h2 : 4 ≤ v.sz) (h3 : m.rows = szSub m.cols 1) :
    NoChk.mtxVecWedge junk m v = mtxVecWedge junk m v := by
  unfold NoChk.mtxVecWedge mtxVecWedge
  rw [if_neg (by omega)]
  have hrows : m.rows < m.cols := by
    rw [h3, szSub_le (by omega)]
    omega
  refine bind_congr_ok init_none.1 fun a ha => ?_
  obtain ⟨rc, A⟩ := a
  have hA : Shp A m.cols m.cols := init_none.2 rc A ha
  refine bind_congr_ok rfl fun d hd => ?_
  have key := forN_congr_inv (n := m.rows) (s := (junkArr junk m.cols, (⟨A.rows, A.cols, d⟩ : Mtx R)))
    (f := fun i (s : List R × Mtx R) => (do
      let (_, av) ← NoChk.mtxGetRow m i s.1
      let (_, A) ← NoChk.mtxSetRow s.2 i av
      return (av, A) : Out (List R × Mtx R)))
    (g := fun i (s : List R × Mtx R) => (do
      let (_, av) ← mtxGetRow m i s.1
      let (_, A) ← mtxSetRow s.2 i av
      return (av, A) : Out (List R × Mtx R)))
    (fun _ s => Shp s.2 m.cols m.cols) hA ?_ ?_
  · refine bind_congr_ok key.1 fun s hs => ?_
    have hs' := key.2 s hs
    obtain ⟨av, B⟩ := s
    have hB : Shp B m.cols m.cols := hs'
    refine bind_congr_ok (deter_eq fun _ _ _ => by rw [hB.1, hB.2]) fun x _ => ?_
    refine bind_congr_ok (inv_eq hB.1.symm hB.2.symm) fun y hy => ?_
    obtain ⟨rc1, Ai⟩ := y
    have hAi : Shp Ai m.cols m.cols := shp_inv (mi := Mtx.uninit junk m.cols m.cols) hB.1.symm hB.2.symm hy
    refine bind_congr_ok init_none.1 fun z hz => ?_
    obtain ⟨rc2, b⟩ := z
    have hb : Shp b m.cols 1 := init_none.2 rc2 b hz
    refine bind_congr_ok rfl fun bd _ => ?_
    exact bind_congr_ok (mult_eq (hAi.2.trans hb.1.symm) (hb.1.trans hAi.1.symm) rfl) fun w _ => rfl
  · intro i hi s hs
    refine bind_congr_ok (getRow_eq hi) fun x _ => ?_
    exact bind_congr_ok (setRow_eq (by rw [hs.1]; omega)).1 fun y _ => rfl
  · intro i hi s s' hs he
    obtain ⟨⟨rc1, x⟩, -, he⟩ := bind_ok he
    obtain ⟨⟨rc2, y⟩, hy, he⟩ := bind_ok he
    cases he
    have := (setRow_eq (by rw [hs.1]; omega)).2 rc2 y hy
    rw [hs.1, hs.2] at this
    exact this

/-! ### Symmetry test -/

theorem isSym_eq {x0 : R} {m : Mtx R} (h : m.cols = m.rows) : NoChk.mtxIsSym x0 m = mtxIsSym x0 m := by
  unfold NoChk.mtxIsSym mtxIsSym
  refine bind_congr_ok (forRet_congr_inv (fun _ _ => True) (fun _ => True) trivial ?_ ?_).1 fun a _ => rfl
  · intro i hi s _
    refine (forRet_congr_inv (fun _ _ => True) (fun _ => True) trivial ?_ ?_).1
    · intro j hj s _
      refine bind_congr_ok (get_eq hi hj) fun x _ => ?_
      exact bind_congr_ok (get_eq (by omega) (by omega)) fun y _ => rfl
    · rintro j hj t _ (c | c) - <;> trivial
  · rintro i hi t _ (c | c) - <;> trivial

end Verif.NoChkL
