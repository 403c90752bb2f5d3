import Verif.Props.Matrices5
import Verif.Props.Vectors1

/-!
# Properties of matrices: extrema (C32), predicates (C33), wedge product (C35)
-/

set_option linter.unusedSectionVars false

namespace Verif

open Out

variable {R : Type} [CReal R] {n r c : ℕ}

/-! ## C32: extrema -/

/-- The search loop shared by `zsl_mtx_min_idx` and `zsl_mtx_max_idx`, for a comparison `lt`. -/
theorem idxSearch (A : Matrix (Fin r) (Fin c) ℝ) (t : List XR) (hr : 0 < r) (hc : 0 < c)
    (cmp : XR → XR → Bool) (lt : ℝ → ℝ → Prop) (hcmp : ∀ a b, cmp (XR.fin a) (XR.fin b) = true ↔ lt a b)
    (hneg : ∀ a b x, lt a x → ¬lt b x → lt a b) (hasym : ∀ a b, lt a b → ¬lt b a) :
    (forN r (fun i s =>
      forN c (fun j (s : XR × ℕ × ℕ) => do
        let a ← rd (mat A t).data (i * c + j)
        return (if cmp a s.1 then (a, i, j) else s)) s) (XR.fin (A ⟨0, hr⟩ ⟨0, hc⟩), 0, 0)).sat fun s =>
      ∃ (i : Fin r) (j : Fin c), s = (XR.fin (A i j), i.val, j.val) ∧ (∀ a b, ¬lt (A a b) (A i j)) ∧
        ∀ a b, (a < i ∨ (a = i ∧ b < j)) → lt (A i j) (A a b) := by
  have hirr : ∀ a, ¬lt a a := fun a h => hasym a a h h
  refine (forN_sat (fun p s => ∃ (i : Fin r) (j : Fin c), s = (XR.fin (A i j), i.val, j.val) ∧
      (∀ (a : Fin r) (b : Fin c), a.val < p → ¬lt (A a b) (A i j)) ∧
      (i.val < p ∨ (i.val = 0 ∧ j.val = 0)) ∧
      ∀ a b, (a < i ∨ (a = i ∧ b < j)) → lt (A i j) (A a b)) ?_ ?_).mono ?_
  · refine ⟨⟨0, hr⟩, ⟨0, hc⟩, rfl, fun a b h => absurd h (by omega), Or.inr ⟨rfl, rfl⟩, ?_⟩
    rintro a b (h | ⟨_, h⟩)
    · exact absurd h (by simp [Fin.lt_def])
    · exact absurd h (by simp [Fin.lt_def])
  · rintro p hp s ⟨i, j, hs, hle, hpos, hfirst⟩
    refine (forN_sat (fun q s => ∃ (i : Fin r) (j : Fin c), s = (XR.fin (A i j), i.val, j.val) ∧
      (∀ (a : Fin r) (b : Fin c), (a.val < p ∨ (a.val = p ∧ b.val < q)) → ¬lt (A a b) (A i j)) ∧
      ((i.val < p ∨ (i.val = p ∧ j.val < q)) ∨ (i.val = 0 ∧ j.val = 0)) ∧
      ∀ a b, (a < i ∨ (a = i ∧ b < j)) → lt (A i j) (A a b)) ?_ ?_).mono ?_
    · refine ⟨i, j, hs, fun a b h => hle a b (by omega), ?_, hfirst⟩
      rcases hpos with h | h
      · exact Or.inl (Or.inl h)
      · exact Or.inr h
    · rintro q hq s ⟨i, j, hs, hle, hpos, hfirst⟩
      obtain ⟨pp, rfl⟩ : ∃ pp : Fin r, pp.val = p := ⟨⟨p, hp⟩, rfl⟩
      obtain ⟨qq, rfl⟩ : ∃ qq : Fin c, qq.val = q := ⟨⟨q, hq⟩, rfl⟩
      rw [mat_rd A t _ pp qq rfl, ok_bind, pure_eq, sat_ok, hs]
      by_cases hlt : lt (A pp qq) (A i j)
      · rw [if_pos ((hcmp _ _).2 hlt)]
        refine ⟨pp, qq, rfl, ?_, Or.inl (Or.inr ⟨rfl, by omega⟩), ?_⟩
        · intro a b hab
          by_cases he : a.val = pp.val ∧ b.val = qq.val
          · rw [Fin.ext he.1, Fin.ext he.2]
            exact hirr _
          · exact hasym _ _ (hneg _ _ _ hlt (hle a b (by omega)))
        · intro a b hab
          refine hneg _ _ _ hlt (hle a b ?_)
          rcases hab with h | ⟨h1, h2⟩
          · exact Or.inl h
          · exact Or.inr ⟨by rw [h1], h2⟩
      · rw [if_neg (by rw [hcmp]; exact hlt)]
        refine ⟨i, j, rfl, ?_, ?_, hfirst⟩
        · intro a b hab
          by_cases he : a.val = pp.val ∧ b.val = qq.val
          · rw [Fin.ext he.1, Fin.ext he.2]
            exact hlt
          · exact hle a b (by omega)
        · omega
    · rintro s ⟨i, j, hs, hle, hpos, hfirst⟩
      refine ⟨i, j, hs, fun a b h => hle a b (by have := b.2; omega), ?_, hfirst⟩
      omega
  · rintro s ⟨i, j, hs, hle, _, hfirst⟩
    exact ⟨i, j, hs, fun a b => hle a b a.2, hfirst⟩

/-- C32. `zsl_mtx_min_idx` returns the position of a smallest element, the first one in row-major order. -/
theorem mtx_min_idx_correct (A : Matrix (Fin r) (Fin c) ℝ) (t : List XR) (hr : 0 < r) (hc : 0 < c) :
    ∃ (i : Fin r) (j : Fin c), mtxMinIdx (mat A t) = ok (0, i.val, j.val) ∧ (∀ a b, A i j ≤ A a b) ∧
      ∀ a b, (a < i ∨ (a = i ∧ b < j)) → A i j < A a b := by
  obtain ⟨s, hs, i, j, rfl, h1, h2⟩ := idxSearch A t hr hc CReal.lt (· < ·) (fun a b => XR.fin_lt a b)
    (fun a b x h1 h2 => lt_of_lt_of_le h1 (not_lt.1 h2)) (fun a b h => not_lt.2 h.le)
  refine ⟨i, j, ?_, fun a b => not_lt.1 (h1 a b), h2⟩
  unfold mtxMinIdx
  rw [mat_rd A t 0 ⟨0, hr⟩ ⟨0, hc⟩ (by simp), ok_bind, mat_rows, mat_cols]
  exact hs ▸ rfl

/-- C32. `zsl_mtx_max_idx` returns the position of a largest element, the first one in row-major order. -/
theorem mtx_max_idx_correct (A : Matrix (Fin r) (Fin c) ℝ) (t : List XR) (hr : 0 < r) (hc : 0 < c) :
    ∃ (i : Fin r) (j : Fin c), mtxMaxIdx (mat A t) = ok (0, i.val, j.val) ∧ (∀ a b, A a b ≤ A i j) ∧
      ∀ a b, (a < i ∨ (a = i ∧ b < j)) → A a b < A i j := by
  obtain ⟨s, hs, i, j, rfl, h1, h2⟩ := idxSearch A t hr hc CReal.gt (· > ·) (fun a b => XR.fin_gt a b)
    (fun a b x h1 h2 => lt_of_le_of_lt (not_lt.1 h2) h1) (fun a b h => not_lt.2 h.le)
  refine ⟨i, j, ?_, fun a b => not_lt.1 (h1 a b), h2⟩
  unfold mtxMaxIdx
  rw [mat_rd A t 0 ⟨0, hr⟩ ⟨0, hc⟩ (by simp), ok_bind, mat_rows, mat_cols]
  exact hs ▸ rfl

/-- The search loop shared by `zsl_mtx_min` and `zsl_mtx_max`. -/
theorem valSearch (A : Matrix (Fin r) (Fin c) ℝ) (t : List XR) (hr : 0 < r) (hc : 0 < c)
    (cmp : XR → XR → Bool) (lt : ℝ → ℝ → Prop) (hcmp : ∀ a b, cmp (XR.fin a) (XR.fin b) = true ↔ lt a b)
    (hneg : ∀ a b x, lt a x → ¬lt b x → lt a b) (hasym : ∀ a b, lt a b → ¬lt b a) :
    (forN (c * r) (fun i m => do
        let a ← rd (mat A t).data i
        return (if cmp a m then a else m)) (XR.fin (A ⟨0, hr⟩ ⟨0, hc⟩))).sat fun s =>
      ∃ (i : Fin r) (j : Fin c), s = XR.fin (A i j) ∧ ∀ a b, ¬lt (A a b) (A i j) := by
  refine (forN_sat (fun p s => ∃ (i : Fin r) (j : Fin c), s = XR.fin (A i j) ∧
      ∀ (a : Fin r) (b : Fin c), a.val * c + b.val < p → ¬lt (A a b) (A i j)) ?_ ?_).mono ?_
  · exact ⟨⟨0, hr⟩, ⟨0, hc⟩, rfl, fun a b h => absurd h (by omega)⟩
  · rintro p hp s ⟨i, j, rfl, hle⟩
    have hp' : p < r * c := by rw [Nat.mul_comm]; exact hp
    have hdiv : p / c < r := (Nat.div_lt_iff_lt_mul hc).2 hp'
    have hmod : p % c < c := Nat.mod_lt _ hc
    have hpe : p = p / c * c + p % c := by rw [Nat.mul_comm]; exact (Nat.div_add_mod p c).symm
    rw [mat_rd A t p ⟨p / c, hdiv⟩ ⟨p % c, hmod⟩ hpe, ok_bind, pure_eq, sat_ok]
    have hlast : ∀ (a : Fin r) (b : Fin c), a.val * c + b.val = p →
        a = ⟨p / c, hdiv⟩ ∧ b = ⟨p % c, hmod⟩ := by
      intro a b h
      constructor
      · apply Fin.ext
        dsimp only
        rw [← h, flat_div b.2]
      · apply Fin.ext
        dsimp only
        rw [← h, flat_mod b.2]
    by_cases hlt : lt (A ⟨p / c, hdiv⟩ ⟨p % c, hmod⟩) (A i j)
    · rw [if_pos ((hcmp _ _).2 hlt)]
      refine ⟨_, _, rfl, fun a b hab => ?_⟩
      rcases Nat.lt_succ_iff_lt_or_eq.1 hab with h | h
      · exact hasym _ _ (hneg _ _ _ hlt (hle a b h))
      · obtain ⟨rfl, rfl⟩ := hlast a b h
        exact fun h => hasym _ _ h h
    · rw [if_neg (by rw [hcmp]; exact hlt)]
      refine ⟨_, _, rfl, fun a b hab => ?_⟩
      rcases Nat.lt_succ_iff_lt_or_eq.1 hab with h | h
      · exact hle a b h
      · obtain ⟨rfl, rfl⟩ := hlast a b h
        exact hlt
  · rintro s ⟨i, j, hs, hle⟩
    exact ⟨i, j, hs, fun a b => hle a b (by rw [Nat.mul_comm c r]; exact flat_lt a.2 b.2)⟩

/-- C32. `zsl_mtx_min` returns an element of the matrix that is a lower bound of all elements. -/
theorem mtx_min_correct (A : Matrix (Fin r) (Fin c) ℝ) (t : List XR) (hr : 0 < r) (hc : 0 < c) :
    ∃ (i : Fin r) (j : Fin c), mtxMin (mat A t) = ok (0, XR.fin (A i j)) ∧ ∀ a b, A i j ≤ A a b := by
  obtain ⟨s, hs, i, j, rfl, h1⟩ := valSearch A t hr hc CReal.lt (· < ·) (fun a b => XR.fin_lt a b)
    (fun a b x h1 h2 => lt_of_lt_of_le h1 (not_lt.1 h2)) (fun a b h => not_lt.2 h.le)
  refine ⟨i, j, ?_, fun a b => not_lt.1 (h1 a b)⟩
  unfold mtxMin
  rw [mat_rd A t 0 ⟨0, hr⟩ ⟨0, hc⟩ (by simp), ok_bind, mat_rows, mat_cols]
  exact hs ▸ rfl

/-- C32. `zsl_mtx_max` returns an element of the matrix that is an upper bound of all elements. -/
theorem mtx_max_correct (A : Matrix (Fin r) (Fin c) ℝ) (t : List XR) (hr : 0 < r) (hc : 0 < c) :
    ∃ (i : Fin r) (j : Fin c), mtxMax (mat A t) = ok (0, XR.fin (A i j)) ∧ ∀ a b, A a b ≤ A i j := by
  obtain ⟨s, hs, i, j, rfl, h1⟩ := valSearch A t hr hc CReal.gt (· > ·) (fun a b => XR.fin_gt a b)
    (fun a b x h1 h2 => lt_of_le_of_lt (not_lt.1 h2) h1) (fun a b h => not_lt.2 h.le)
  refine ⟨i, j, ?_, fun a b => not_lt.1 (h1 a b)⟩
  unfold mtxMax
  rw [mat_rd A t 0 ⟨0, hr⟩ ⟨0, hc⟩ (by simp), ok_bind, mat_rows, mat_cols]
  exact hs ▸ rfl

/-- Non-vacuity: with a repeated minimum the first position is reported. -/
example : mtxMinIdx (mat !![3, 1, 2; 1, 4, 1] []) = ok (0, 0, 1) := by
  obtain ⟨i, j, h, h1, h2⟩ := mtx_min_idx_correct !![3, 1, 2; 1, 4, 1] [] (by omega) (by omega)
  rw [h]
  have h01 := h1 0 1
  have h2' := h2 0 1
  fin_cases i <;> fin_cases j <;> simp at h01 h2' ⊢

/-! ## C33: predicates -/

/-- C33. `zsl_mtx_is_notneg` is true exactly when no element is negative. -/
theorem mtx_is_notneg_correct (A : Matrix (Fin r) (Fin c) ℝ) (t : List XR) :
    ∃ b, mtxIsNotneg (mat A t) = ok b ∧ (b = true ↔ ∀ i j, 0 ≤ A i j) := by
  unfold mtxIsNotneg
  have hloop := forRet_sat (n := r * c) (ρ := Bool) (f := fun i (_ : Unit) => do
      let a ← rd (mat A t).data i
      if CReal.lt a (lit 0) then return Ctl.ret false else return Ctl.next ()) (s := ())
    (fun p _ => ∀ (a : Fin r) (b : Fin c), a.val * c + b.val < p → 0 ≤ A a b)
    (fun x => x = false ∧ ∃ a b, A a b < 0) (fun a b h => absurd h (by omega)) (by
      rintro p hp ⟨⟩ ih
      have hc : 0 < c := by
        rcases Nat.eq_zero_or_pos c with h | h
        · rw [h] at hp
          omega
        · exact h
      have hdiv : p / c < r := (Nat.div_lt_iff_lt_mul hc).2 hp
      have hmod : p % c < c := Nat.mod_lt _ hc
      have hpe : p = p / c * c + p % c := by rw [Nat.mul_comm]; exact (Nat.div_add_mod p c).symm
      rw [mat_rd A t p ⟨p / c, hdiv⟩ ⟨p % c, hmod⟩ hpe, ok_bind]
      by_cases hlt : A ⟨p / c, hdiv⟩ ⟨p % c, hmod⟩ < 0
      · rw [if_pos (by simpa using hlt)]
        exact (sat_ok _ _).2 ⟨rfl, _, _, hlt⟩
      · rw [if_neg (by simpa using hlt)]
        refine (sat_ok _ _).2 fun a b hab => ?_
        rcases Nat.lt_succ_iff_lt_or_eq.1 hab with h | h
        · exact ih a b h
        · have ha : a = ⟨p / c, hdiv⟩ := Fin.ext (by dsimp only; rw [← h, flat_div b.2])
          have hb : b = ⟨p % c, hmod⟩ := Fin.ext (by dsimp only; rw [← h, flat_mod b.2])
          rw [ha, hb]
          exact not_lt.1 hlt)
  obtain ⟨x, hx, hP⟩ := hloop
  rw [mat_rows, mat_cols, hx]
  rcases x with ⟨⟩ | b
  · exact ⟨true, rfl, by simpa using fun i j => hP i j (flat_lt i.2 j.2)⟩
  · obtain ⟨rfl, a, b, hab⟩ := hP
    refine ⟨false, rfl, by simp only [Bool.false_eq_true, false_iff]; exact fun h => absurd (h a b) (not_le.2 hab)⟩

/-- C33. `zsl_mtx_is_sym` on a square matrix is true exactly when `|a_ij - a_ji| < 1e-6` for all `i`, `j`. -/
theorem mtx_is_sym_correct (x0 : XR) (A : Matrix (Fin n) (Fin n) ℝ) (t : List XR) :
    ∃ b, mtxIsSym x0 (mat A t) = ok b ∧ (b = true ↔ ∀ i j, |A i j - A j i| < 1 / 1000000) := by
  unfold mtxIsSym
  have hloop := forRet_sat (n := n) (ρ := Bool) (f := fun i s =>
    forRet n (fun j (s : XR × XR) => do
      let (_, x) ← mtxGet (mat A t) i j s.1
      let (_, y) ← mtxGet (mat A t) j i s.2
      let diff := x - y
      if CReal.ge diff (lit 1e-6) || CReal.le diff (-lit 1e-6) then return Ctl.ret false
      else return Ctl.next (x, y)) s) (s := (x0, x0))
    (fun p _ => ∀ i j : Fin n, i.val < p → |A i j - A j i| < 1 / 1000000)
    (fun x => x = false ∧ ∃ i j, ¬|A i j - A j i| < 1 / 1000000) (fun i j h => absurd h (by omega)) (by
      rintro p hp s ih
      refine Out.sat.mono (forRet_sat (fun q _ => ∀ i j : Fin n, (i.val < p ∨ (i.val = p ∧ j.val < q)) →
        |A i j - A j i| < 1 / 1000000) (fun x => x = false ∧ ∃ i j, ¬|A i j - A j i| < 1 / 1000000)
        (fun i j h => ih i j (by omega)) ?_) ?_
      · rintro q hq s ih
        dsimp only
        obtain ⟨pp, rfl⟩ : ∃ pp : Fin n, pp.val = p := ⟨⟨p, hp⟩, rfl⟩
        obtain ⟨qq, rfl⟩ : ∃ qq : Fin n, qq.val = q := ⟨⟨q, hq⟩, rfl⟩
        rw [mat_get, ok_bind]
        dsimp only
        rw [mat_get, ok_bind]
        dsimp only
        have hiff : ((CReal.ge (XR.fin (A pp qq) - XR.fin (A qq pp)) (lit 1e-6) ||
            CReal.le (XR.fin (A pp qq) - XR.fin (A qq pp)) (-lit 1e-6)) = true) ↔
            ¬|A pp qq - A qq pp| < 1 / 1000000 := by
          rw [XR.fin_sub]
          have := isNonzeroE_fin (A pp qq - A qq pp)
          unfold isNonzeroE at this
          rw [this, not_lt]
        by_cases hs : |A pp qq - A qq pp| < 1 / 1000000
        · rw [if_neg (by rw [hiff]; exact not_not.2 hs)]
          refine (sat_ok _ _).2 fun i j hij => ?_
          by_cases he : i.val = pp.val ∧ j.val = qq.val
          · rw [Fin.ext he.1, Fin.ext he.2]
            exact hs
          · exact ih i j (by omega)
        · rw [if_pos (hiff.2 hs)]
          exact (sat_ok _ _).2 ⟨rfl, _, _, hs⟩
      · rintro (s | x) h
        · exact fun i j hij => h i j (by have := j.2; omega)
        · exact h)
  obtain ⟨x, hx, hP⟩ := hloop
  rw [mat_rows, mat_cols, hx]
  rcases x with s | b
  · exact ⟨true, rfl, by simpa using fun i j => hP i j i.2⟩
  · obtain ⟨rfl, a, b, hab⟩ := hP
    exact ⟨false, rfl, by simp only [Bool.false_eq_true, false_iff]; exact fun h => hab (h a b)⟩

section
variable [DecidableEq R]

/-- C33, exact behaviour of `zsl_mtx_is_equal`: it compares the first `r + c` cells instead of all `r * c` cells. -/
theorem mtx_is_equal_exact (ma mb : Mtx R) (ha : ma.rows + ma.cols ≤ ma.data.length)
    (hb : ma.rows + ma.cols ≤ mb.data.length) :
    ∃ b, mtxIsEqual ma mb = ok b ∧ (b = true ↔ ma.rows = mb.rows ∧ ma.cols = mb.cols ∧
      ma.data.take (ma.rows + ma.cols) = mb.data.take (ma.rows + ma.cols)) := by
  unfold mtxIsEqual
  by_cases h1 : ma.rows ≠ mb.rows ∨ ma.cols ≠ mb.cols
  · rw [if_pos h1]
    exact ⟨false, rfl, by simp only [Bool.false_eq_true, false_iff]; tauto⟩
  · rw [if_neg h1]
    dsimp only
    rw [if_neg (by omega)]
    exact ⟨_, rfl, by simp only [decide_eq_true_eq]; tauto⟩

/-- C33. Different shapes are never equal. -/
theorem mtx_is_equal_shape (ma mb : Mtx R) (h : ma.rows ≠ mb.rows ∨ ma.cols ≠ mb.cols) :
    mtxIsEqual ma mb = ok false := by
  unfold mtxIsEqual
  rw [if_pos h]

/-- C33, exact behaviour on matrices with at least two rows and columns: only the elements with a row-major position below `r + c`
are compared. -/
theorem mtx_is_equal_iff (A B : Matrix (Fin r) (Fin c) R) (t u : List R) (hr : 2 ≤ r) (hc : 2 ≤ c) :
    ∃ b, mtxIsEqual (mtxOf A t) (mtxOf B u) = ok b ∧
      (b = true ↔ ∀ i j, i.val * c + j.val < r + c → A i j = B i j) := by
  have hlen : r + c ≤ r * c := by nlinarith
  obtain ⟨b, hb, hiff⟩ := mtx_is_equal_exact (mtxOf A t) (mtxOf B u) (by simp [mtxOf]; omega)
    (by simp [mtxOf]; omega)
  refine ⟨b, hb, hiff.trans ?_⟩
  have key : ∀ (D : Matrix (Fin r) (Fin c) R) (w : List R) (k : ℕ) (hk : k < r + c),
      (mtxOf D w).data[k]? = some (ext D (k / c) (k % c)) := by
    intro D w k hk
    have h := mkD_rdk (ext D) w (show k < r * c by omega)
    rw [mtxOf_eq, mkM_data]
    unfold rd at h
    revert h
    cases (mkD r c (ext D) w)[k]? <;> simp
  simp only [mtxOf_rows, mtxOf_cols, true_and]
  constructor
  · intro h i j hij
    have h1 := congrArg (fun l => l[i.val * c + j.val]?) h
    simp only [List.getElem?_take, if_pos hij] at h1
    rw [key A t _ hij, key B u _ hij, flat_div j.2, flat_mod j.2, ext_fin, ext_fin] at h1
    exact Option.some.inj h1
  · intro h
    apply List.ext_getElem?
    intro k
    rw [List.getElem?_take, List.getElem?_take]
    by_cases hk : k < r + c
    · rw [if_pos hk, if_pos hk, key A t _ hk, key B u _ hk]
      have hdiv : k / c < r := (Nat.div_lt_iff_lt_mul (by omega)).2 (by omega)
      have hmod : k % c < c := Nat.mod_lt _ (by omega)
      rw [ext_lt _ hdiv hmod, ext_lt _ hdiv hmod, h ⟨k / c, hdiv⟩ ⟨k % c, hmod⟩]
      simp only
      rw [Nat.mul_comm, Nat.div_add_mod]
      exact hk
    · rw [if_neg hk, if_neg hk]

/-- C33. Equal matrices with at least two rows and columns are reported equal. -/
theorem mtx_is_equal_refl (A : Matrix (Fin r) (Fin c) R) (t u : List R) (hr : 2 ≤ r) (hc : 2 ≤ c) :
    mtxIsEqual (mtxOf A t) (mtxOf A u) = ok true := by
  obtain ⟨b, hb, hiff⟩ := mtx_is_equal_iff A A t u hr hc
  rw [hb, hiff.2 fun _ _ _ => rfl]

/-- C33 `_partial`. On 2x2 matrices `zsl_mtx_is_equal` is true exactly when all elements agree. Missing: every other shape, where
the number of compared cells is wrong (`mtx_is_equal_wrong`, `mtx_is_equal_overread`). -/
theorem mtx_is_equal_partial (A B : Matrix (Fin 2) (Fin 2) R) (t u : List R) :
    ∃ b, mtxIsEqual (mtxOf A t) (mtxOf B u) = ok b ∧ (b = true ↔ A = B) := by
  obtain ⟨b, hb, hiff⟩ := mtx_is_equal_iff A B t u le_rfl le_rfl
  refine ⟨b, hb, hiff.trans ⟨fun h => ?_, fun h => by rw [h]; exact fun _ _ _ => rfl⟩⟩
  ext i j
  exact h i j (by omega)

/-- C33, negation: for every shape with more than `r + c` elements there are two different matrices that are reported equal. -/
theorem mtx_is_equal_wrong (a b : R) (hab : a ≠ b) (hr : 2 ≤ r) (hc : 2 ≤ c) (h : r + c < r * c) :
    ∃ A B : Matrix (Fin r) (Fin c) R, A ≠ B ∧ mtxIsEqual (mtxOf A []) (mtxOf B []) = ok true := by
  have hlast : (r - 1) * c + (c - 1) + 1 = r * c := by
    obtain ⟨r', rfl⟩ : ∃ r', r = r' + 1 := ⟨r - 1, by omega⟩
    simp only [Nat.add_sub_cancel]
    rw [Nat.add_mul, Nat.one_mul]
    omega
  refine ⟨Matrix.of fun _ _ => a, Matrix.of fun i j => if i.val * c + j.val < r + c then a else b, ?_, ?_⟩
  · intro he
    have h1 := congrFun (congrFun he ⟨r - 1, by omega⟩) ⟨c - 1, by omega⟩
    simp only [Matrix.of_apply] at h1
    rw [if_neg (by omega)] at h1
    exact hab h1
  · obtain ⟨x, hx, hiff⟩ := mtx_is_equal_iff (Matrix.of fun (_ : Fin r) (_ : Fin c) => a)
      (Matrix.of fun (i : Fin r) (j : Fin c) => if i.val * c + j.val < r + c then a else b) [] [] hr hc
    rw [hx, hiff.2]
    intro i j hij
    simp only [Matrix.of_apply]
    rw [if_pos hij]

/-- Non-vacuity: 3x3 has more than six elements. -/
example [DecidableEq XR] : ∃ A B : Matrix (Fin 3) (Fin 3) XR, A ≠ B ∧ mtxIsEqual (mtxOf A []) (mtxOf B []) = ok true :=
  mtx_is_equal_wrong (XR.fin 0) (XR.fin 1) (by simp) (by omega) (by omega) (by omega)

/-- C33, negation: with a single row or column the comparison reads behind the buffer. -/
theorem mtx_is_equal_overread (A B : Matrix (Fin 1) (Fin c) R) :
    mtxIsEqual (mtxOf A []) (mtxOf B []) = ub := by
  unfold mtxIsEqual
  rw [if_neg (by simp)]
  simp only
  rw [if_pos (by left; simp [mtxOf])]

end

/-! ## C35: the wedge product -/

/-- The matrix whose rows are those of `m`, followed by the last unit vector. -/
def wedgeMat {α : Type} [Zero α] [One α] (M : Matrix (Fin n) (Fin (n + 1)) α) : Matrix (Fin (n + 1)) (Fin (n + 1)) α :=
  Matrix.of (Fin.snoc (fun i => M i) (Pi.single (Fin.last n) 1) : Fin (n + 1) → Fin (n + 1) → α)

theorem mat_col_data (D : Matrix (Fin n) (Fin 1) ℝ) : (mat D []).data = List.ofFn fun i => XR.fin (D i 0) := by
  unfold mat
  rw [mtxOf_eq, mkM_data]
  apply List.ext_getElem?
  intro k
  by_cases hk : k < n
  · have h := mkD_rdk (ext (D.map XR.fin)) [] (show k < n * 1 by omega)
    rw [List.getElem?_ofFn, dif_pos hk]
    unfold rd at h
    rw [Nat.div_one, Nat.mod_one, ext_lt _ hk (by omega)] at h
    revert h
    cases (mkD n 1 (ext (D.map XR.fin)) [])[k]? <;> simp
  · rw [List.getElem?_eq_none (by simp; omega), List.getElem?_eq_none (by simp; omega)]

/-- C35, exact behaviour: `zsl_mtx_vec_wedge` stores the last column of `det(A) * C`, where `A` has the given rows and the last unit
vector as rows, and `C` is what `zsl_mtx_inv` makes of `A`. -/
theorem mtx_vec_wedge_exact (junk : ℕ → XR) (M : Matrix (Fin n) (Fin (n + 1)) ℝ) (t u : List XR)
    (x : Fin (n + 1) → ℝ) (hn : 3 ≤ n) (C : Matrix (Fin (n + 1)) (Fin (n + 1)) ℝ)
    (hC : ∀ B : Matrix (Fin (n + 1)) (Fin (n + 1)) XR,
      mtxInv junk (mat (wedgeMat M) []) (mtxOf B []) = ok (0, mat C [])) :
    mtxVecWedge junk (mat M t) (vec x u) =
      ok (0, vec (fun i => (wedgeMat M).det * C i (Fin.last n)) u) := by
  unfold mtxVecWedge
  rw [if_neg (by
    rw [mat_rows, mat_cols, szSub_le (by omega)]
    simp [vec]
    omega)]
  simp only [mat_rows, mat_cols]
  obtain ⟨U, hU⟩ := uninit_eq junk (n + 1) (n + 1)
  obtain ⟨U', hU'⟩ := uninit_eq junk (n + 1) 1
  rw [hU, hU', mtx_init_null]
  rw [ok_bind]; dsimp only
  -- the corner element
  have hlast : (n + 1) * (n + 1) - 1 = n * (n + 1) + n := by
    rw [Nat.add_mul, Nat.one_mul]
    omega
  have hwr : wr (mtxOf (Matrix.of fun (_ : Fin (n + 1)) (_ : Fin (n + 1)) => (lit 0 : XR)) []).data
      ((n + 1) * (n + 1) - 1) (lit 1) =
      ok (mkD (n + 1) (n + 1) (upd (fun _ _ => XR.fin 0) n n (XR.fin 1)) []) := by
    rw [mtxOf_eq, mkM_data, hlast, mkD_wr _ _ _ (by omega) (by omega)]
    congr 1
    apply mkD_congr
    intro a ha b hb
    unfold upd
    split_ifs
    · simp
    · rw [ext_lt _ ha hb]
      simp
  rw [hwr]
  rw [ok_bind]
  -- the rows
  have hrows : (forN n (fun i (s : List XR × Mtx XR) => do
      let x ← mtxGetRow (mat M t) i s.1
      let y ← mtxSetRow s.2 i x.2
      return (x.2, y.2)) (junkArr junk (n + 1),
        ⟨n + 1, n + 1, mkD (n + 1) (n + 1) (upd (fun _ _ => XR.fin 0) n n (XR.fin 1)) []⟩)).sat
      fun s => s.2 = mat (wedgeMat M) [] := by
    refine (forN_sat (fun p s => s.1.length = n + 1 ∧ s.2 = mkM (n + 1) (n + 1) (fun a b =>
      if a < p then ext (M.map XR.fin) a b else upd (fun _ _ => XR.fin 0) n n (XR.fin 1) a b) []) ?_ ?_).mono ?_
    · refine ⟨by simp [junkArr], ?_⟩
      simp [mkM]
    · rintro p hp ⟨av, A⟩ ⟨h1, h2⟩
      dsimp only at h1 h2 ⊢
      rw [h2]
      have hrow : mtxGetRow (mat M t) p av =
          ok (0, (List.range (n + 1)).map (fun j => ext (M.map XR.fin) p j) ++ av.drop (n + 1)) := by
        unfold mat
        rw [mtxOf_eq, mkM_getRow _ _ _ hp (by omega)]
      rw [hrow]
      rw [ok_bind]; dsimp only
      rw [mkM_setRow _ _ _ (fun j => ext (M.map XR.fin) p j) (by omega)]
      · simp only [ok_bind, pure_eq, sat_ok]
        refine ⟨by simp [h1], ?_⟩
        apply mkM_congr
        intro a ha b hb
        by_cases hap : a = p
        · subst hap
          simp
        · simp only [if_neg hap]
          refine if_congr ?_ rfl rfl
          omega
      · intro j hj
        rw [rd_lt (by simp; omega)]
        rw [List.getElem_append_left (by simpa using hj)]
        simp
    · rintro ⟨av, A⟩ ⟨_, h2⟩
      rw [h2]
      unfold mat
      refine mkM_eq_mtxOf (r := n + 1) (c := n + 1) _ fun a b => ?_
      simp only [Matrix.map_apply, wedgeMat, Matrix.of_apply]
      refine Fin.lastCases ?_ (fun a => ?_) a
      · rw [if_neg (by simp), Fin.snoc_last]
        unfold upd
        by_cases hb : b = Fin.last n
        · subst hb
          simp
        · have : b.val ≠ n := fun h => hb (Fin.ext h)
          simp [this, hb]
      · rw [if_pos (by simp), Fin.snoc_castSucc]
        simp only [Fin.val_castSucc]
        rw [ext_lt _ a.2 b.2]
        rfl
  obtain ⟨⟨av, A⟩, hs, hA⟩ := hrows
  dsimp only at hA
  simp only [mtxOf_rows, mtxOf_cols]
  rw [hs]
  rw [ok_bind]; dsimp only
  rw [hA, mtx_deter_correct]
  rw [ok_bind]; dsimp only
  rw [hC U]
  rw [ok_bind]; dsimp only
  rw [mtx_init_null]
  rw [ok_bind]; dsimp only
  have hb : wr (mtxOf (Matrix.of fun (_ : Fin (n + 1)) (_ : Fin 1) => (lit 0 : XR)) []).data (n + 1 - 1)
      (XR.fin (wedgeMat M).det) =
      ok (mat (Matrix.of fun (i : Fin (n + 1)) (_ : Fin 1) => if i = Fin.last n then (wedgeMat M).det else 0) []).data := by
    rw [mtxOf_eq, mkM_data, show n + 1 - 1 = n * 1 + 0 by omega, mkD_wr _ _ _ (by omega) (by omega)]
    unfold mat
    rw [mtxOf_eq, mkM_data]
    congr 1
    apply mkD_congr
    intro a ha b hb
    rw [ext_lt _ ha hb]
    obtain rfl : b = 0 := by omega
    unfold upd
    by_cases han : a = n
    · subst han
      simp [Fin.last]
    · rw [if_neg (fun h => han h.1), ext_lt _ ha hb]
      simp [Fin.ext_iff, han]
  rw [hb]
  rw [ok_bind]
  have hbm : ({ mtxOf (Matrix.of fun (_ : Fin (n + 1)) (_ : Fin 1) => (lit 0 : XR)) [] with
      data := (mat (Matrix.of fun (i : Fin (n + 1)) (_ : Fin 1) =>
        if i = Fin.last n then (wedgeMat M).det else 0) []).data } : Mtx XR) =
      mat (Matrix.of fun (i : Fin (n + 1)) (_ : Fin 1) => if i = Fin.last n then (wedgeMat M).det else 0) [] := rfl
  rw [hbm]
  have hmul := mtx_mult_correct C (Matrix.of fun (i : Fin (n + 1)) (_ : Fin 1) =>
    if i = Fin.last n then (wedgeMat M).det else 0) ((Matrix.of fun (i : Fin (n + 1)) (_ : Fin 1) =>
    if i = Fin.last n then (wedgeMat M).det else 0).map XR.fin) [] [] []
  change mtxMult _ _ (mat _ []) = _ at hmul
  rw [hmul]
  rw [ok_bind]; dsimp only
  rw [vec_from_arr_correct _ _ (by simp [Vec.WF, vec, arr]) (by simp [vec, mat, mtxOf])]
  simp only [ok_bind, pure_eq]
  congr 2
  unfold vec
  congr 1
  rw [mat_col_data]
  simp only [arr]
  rw [List.take_of_length_le (by simp), List.drop_append_of_le_length (by simp), List.drop_of_length_le (by simp),
    List.nil_append]
  congr 2
  funext i
  simp [Matrix.mul_apply, mul_comm]

/-- C35. If the elimination inside `zsl_mtx_inv` succeeds (`A * C = 1`), the stored vector is orthogonal to every row and is not zero;
its last component is the determinant. -/
theorem mtx_vec_wedge_of_inv (junk : ℕ → XR) (M : Matrix (Fin n) (Fin (n + 1)) ℝ) (t u : List XR)
    (x : Fin (n + 1) → ℝ) (hn : 3 ≤ n) (C : Matrix (Fin (n + 1)) (Fin (n + 1)) ℝ) (hdet : (wedgeMat M).det ≠ 0)
    (hC : ∀ B : Matrix (Fin (n + 1)) (Fin (n + 1)) XR,
      mtxInv junk (mat (wedgeMat M) []) (mtxOf B []) = ok (0, mat C [])) (hinv : wedgeMat M * C = 1) :
    ∃ v : Fin (n + 1) → ℝ, mtxVecWedge junk (mat M t) (vec x u) = ok (0, vec v u) ∧
      (∀ i, ∑ j, M i j * v j = 0) ∧ v (Fin.last n) ≠ 0 := by
  refine ⟨_, mtx_vec_wedge_exact junk M t u x hn C hC, fun i => ?_, ?_⟩
  · have h := congrFun (congrFun hinv i.castSucc) (Fin.last n)
    rw [Matrix.mul_apply, Matrix.one_apply_ne (Fin.castSucc_lt_last i).ne] at h
    have h2 : ∀ j, wedgeMat M i.castSucc j = M i j := by
      intro j
      simp only [wedgeMat, Matrix.of_apply, Fin.snoc_castSucc]
    simp only [h2] at h
    calc ∑ j, M i j * ((wedgeMat M).det * C j (Fin.last n))
        = (wedgeMat M).det * ∑ j, M i j * C j (Fin.last n) := by
          rw [Finset.mul_sum]
          exact Finset.sum_congr rfl fun j _ => by ring
      _ = 0 := by rw [h, mul_zero]
  · have h := congrFun (congrFun hinv (Fin.last n)) (Fin.last n)
    rw [Matrix.mul_apply, Matrix.one_apply_eq] at h
    have h2 : ∀ j, wedgeMat M (Fin.last n) j = (Pi.single (Fin.last n) (1 : ℝ) : Fin (n + 1) → ℝ) j := by
      intro j
      simp only [wedgeMat, Matrix.of_apply, Fin.snoc_last]
    simp only [h2] at h
    rw [Finset.sum_eq_single (Fin.last n)] at h
    · simp only [Pi.single_eq_same, one_mul] at h
      simp only [h, mul_one]
      exact hdet
    · intro b _ hb
      rw [Pi.single_eq_of_ne hb, zero_mul]
    · simp

/-- The old content of the output of `zsl_mtx_inv` does not matter. -/
theorem mtxInv_out (junk : ℕ → XR) (A : Matrix (Fin n) (Fin n) ℝ) (t u : List XR) (B B' : Matrix (Fin n) (Fin n) XR)
    (hn : n ≠ 0) (h3 : n ≠ 3) : mtxInv junk (mat A t) (mtxOf B u) = mtxInv junk (mat A t) (mtxOf B' u) := by
  obtain ⟨M₀, hM₀⟩ := uninit_eq junk n n
  have hcopy : mtxCopy (Mtx.uninit junk n n) (mat A t) = ok (0, mat A []) := by
    rw [hM₀]
    exact mtx_copy_correct _ _ _ _
  have key : ∀ B : Matrix (Fin n) (Fin n) XR, mtxInv junk (mat A t) (mtxOf B u) =
      (do
        let (_, d) ← mtxDeter junk (mat A t) (lit 0)
        if CReal.eq d (lit 0) then return (0, mtxOf (Matrix.of fun (i j : Fin n) => if i.val = j.val then (lit 1 : XR) else lit 0) u)
        else do
          let (_, mi, _) ← mtxGaussReduc junk (mat A t)
            (mtxOf (Matrix.of fun (i j : Fin n) => if i.val = j.val then (lit 1 : XR) else lit 0) u) (mat A [])
          return (0, mi)) := by
    intro B
    unfold mtxInv
    rw [if_neg (by simpa using h3), if_neg (by simp), if_neg (by simp), if_neg (by simp), if_neg (by simp [hn])]
    rw [mtxOf_rows, mtxOf_cols, hcopy]
    simp only [ok_bind, ne_eq, not_true_eq_false, if_false]
    rw [mtx_init_identity]
    simp only [ok_bind, not_true_eq_false, if_false]
  rw [key, key]

/-- C35 `_partial`. For integer rows of bounded size the stored vector is orthogonal to each of the rows. Missing: rows for which
`zsl_mtx_inv` treats a small non-zero element as zero (`mtx_vec_wedge_wrong`). -/
theorem mtx_vec_wedge_partial (junk : ℕ → XR) (M : Matrix (Fin n) (Fin (n + 1)) ℤ) (t u : List XR)
    (x : Fin (n + 1) → ℝ) (hn : 3 ≤ n) (b : ℕ) (hb1 : 1 ≤ b) (hM : ∀ i j, |M i j| ≤ b)
    (hb : (n + 1).factorial * (2 * b) ^ (n + 1) ≤ 1000000) :
    ∃ v : Fin (n + 1) → ℝ, mtxVecWedge junk (mat (M.map (Int.cast : ℤ → ℝ)) t) (vec x u) = ok (0, vec v u) ∧
      (∀ i, ∑ j, (M i j : ℝ) * v j = 0) ∧ ((wedgeMat M).det ≠ 0 → v ≠ 0) := by
  have hcast : wedgeMat (M.map (Int.cast : ℤ → ℝ)) = (wedgeMat M).map (Int.cast : ℤ → ℝ) := by
    ext i j
    refine Fin.lastCases ?_ (fun i => ?_) i
    · simp only [wedgeMat, Matrix.of_apply, Fin.snoc_last, Matrix.map_apply]
      by_cases hj : j = Fin.last n
      · subst hj
        simp
      · rw [Pi.single_eq_of_ne hj, Pi.single_eq_of_ne hj, Int.cast_zero]
    · simp only [wedgeMat, Matrix.of_apply, Fin.snoc_castSucc, Matrix.map_apply]
  have hdc : (wedgeMat (M.map (Int.cast : ℤ → ℝ))).det = ((wedgeMat M).det : ℝ) := by
    rw [hcast]
    exact (Int.cast_det (wedgeMat M)).symm
  by_cases hd : (wedgeMat M).det = 0
  · refine ⟨_, mtx_vec_wedge_exact junk _ t u x hn 1 fun B => ?_, fun i => ?_, fun h => absurd hd h⟩
    · rw [mtxInv_out junk _ [] [] B ((1 : Matrix (Fin (n + 1)) (Fin (n + 1)) ℝ).map XR.fin) (by omega) (by omega)]
      exact mtx_inv_singular junk _ 1 [] [] (by omega) (by rw [hdc, hd]; simp)
    · rw [hdc, hd]
      simp
  · obtain ⟨C, hC, hinv, _⟩ := mtx_inv_entries_partial junk (wedgeMat M) 1 [] [] (by omega) hd b (by
      intro i j
      refine Fin.lastCases ?_ (fun i => ?_) i
      · simp only [wedgeMat, Matrix.of_apply, Fin.snoc_last]
        by_cases hj : j = Fin.last n
        · subst hj
          simpa using hb1
        · rw [Pi.single_eq_of_ne hj]
          simp
      · simp only [wedgeMat, Matrix.of_apply, Fin.snoc_castSucc]
        exact hM i j) hb
    obtain ⟨v, h1, h2, h3⟩ := mtx_vec_wedge_of_inv junk (M.map (Int.cast : ℤ → ℝ)) t u x hn C
      (by rw [hdc]; exact_mod_cast hd) (fun B => by
        rw [mtxInv_out junk _ [] [] B ((1 : Matrix (Fin (n + 1)) (Fin (n + 1)) ℝ).map XR.fin) (by omega) (by omega), hcast]
        exact hC) (by rw [hcast]; exact hinv)
    refine ⟨v, h1, h2, fun _ h0 => h3 ?_⟩
    rw [h0]
    rfl

/-- C35, exact behaviour for rows whose elements are all below 1e-6: the result is a multiple of the last unit vector, whatever the
rows are. -/
theorem mtx_vec_wedge_small (junk : ℕ → XR) (M : Matrix (Fin n) (Fin (n + 1)) ℝ) (t u : List XR)
    (x : Fin (n + 1) → ℝ) (hn : 3 ≤ n) (hM : ∀ i j, |M i j| < 1 / 1000000) :
    mtxVecWedge junk (mat M t) (vec x u) =
      ok (0, vec (fun i => if i = Fin.last n then (wedgeMat M).det else 0) u) := by
  have hlast : ∀ j, wedgeMat M (Fin.last n) j = (Pi.single (Fin.last n) (1 : ℝ) : Fin (n + 1) → ℝ) j := by
    intro j
    simp only [wedgeMat, Matrix.of_apply, Fin.snoc_last]
  have hsmall : ∀ i j, ¬(i = Fin.last n ∧ j = Fin.last n) → |wedgeMat M i j| < 1 / 1000000 := by
    intro i j
    refine Fin.lastCases (fun h => ?_) (fun i _ => ?_) i
    · rw [hlast, Pi.single_eq_of_ne (fun hj => h ⟨rfl, hj⟩)]
      norm_num
    · simp only [wedgeMat, Matrix.of_apply, Fin.snoc_castSucc]
      exact hM i j
  rw [mtx_vec_wedge_exact junk M t u x hn 1 ?_]
  · congr 3
    funext i
    rw [Matrix.one_apply]
    split_ifs <;> simp
  intro B
  by_cases hd : (wedgeMat M).det = 0
  · rw [mtxInv_out junk _ [] [] B ((1 : Matrix (Fin (n + 1)) (Fin (n + 1)) ℝ).map XR.fin) (by omega) (by omega)]
    exact mtx_inv_singular junk _ 1 [] [] (by omega) hd
  obtain ⟨M₀, hM₀⟩ := uninit_eq junk (n + 1) (n + 1)
  have hcopy : mtxCopy (Mtx.uninit junk (n + 1) (n + 1)) (mat (wedgeMat M) []) = ok (0, mat (wedgeMat M) []) := by
    rw [hM₀]
    exact mtx_copy_correct _ _ _ _
  obtain ⟨M', N, ⟨hM', hN⟩, hres⟩ := mtxGaussReduc_spec junk (wedgeMat M) 1 (wedgeMat M) [] [] []
    (by omega) (fun _ M' N => M' = wedgeMat M ∧ N = 1) ⟨rfl, rfl⟩ (by
      rintro k M' N Q ⟨rfl, rfl⟩ hQ
      have hQ1 : Q = 1 := by
        rcases hQ with ⟨h, rfl⟩ | ⟨_, rfl, _⟩ | ⟨_, q, hq, hbig, _⟩
        · rfl
        · rfl
        · exact absurd hbig (not_le.2 (hsmall q k fun h => hq (h.1.trans h.2.symm)))
      subst hQ1
      rw [one_mul, one_mul]
      suffices h : stepMat (wedgeMat M) k = 1 by
        rw [h, one_mul, one_mul]
        exact ⟨rfl, rfl⟩
      by_cases hk : k = Fin.last n
      · subst hk
        have h1 : wedgeMat M (Fin.last n) (Fin.last n) = 1 := by rw [hlast, Pi.single_eq_same]
        have hmul : mulOf (wedgeMat M) (Fin.last n) (Fin.last n) = 0 := by
          funext p
          unfold mulOf
          rw [if_neg]
          · rfl
          rintro ⟨hp, hbig⟩
          exact absurd hbig (not_le.2 (hsmall p _ fun h => hp h.1))
        rw [stepMat, if_neg (by rw [h1]; norm_num), h1, elimMat, hmul]
        simp [normMat]
      · rw [stepMat, if_pos (hsmall k k fun h => hk h.1)])
  rw [mtxInv_out junk _ [] [] B ((1 : Matrix (Fin (n + 1)) (Fin (n + 1)) ℝ).map XR.fin) (by omega) (by omega)]
  unfold mtxInv
  rw [if_neg (by simp [mat_rows]; omega), if_neg (by simp), if_neg (by simp), if_neg (by simp), if_neg (by simp)]
  rw [mtxOf_rows, mtxOf_cols, hcopy]
  simp only [ok_bind, ne_eq, not_true_eq_false, if_false]
  change (do
    let x ← mtxInit (mat 1 []) (some entryFnIdentity)
    _) = _
  rw [mtx_init_identity_real]
  simp only [ok_bind, not_true_eq_false, if_false]
  rw [mtx_deter_correct]
  simp only [ok_bind, XR.lit_eq, Rat.cast_zero]
  rw [if_neg (by rw [XR.fin_eq]; exact hd), hres, hN]
  rfl

/-- C35, negation: three independent vectors of size 4 for which the result is not orthogonal to the third. -/
theorem mtx_vec_wedge_wrong (junk : ℕ → XR) (x : Fin 4 → ℝ) (u : List XR) :
    ∃ (M : Matrix (Fin 3) (Fin 4) ℝ) (v : Fin 4 → ℝ), LinearIndependent ℝ M.row ∧
      mtxVecWedge junk (mat M []) (vec x u) = ok (0, vec v u) ∧ ∑ j, M 2 j * v j ≠ 0 := by
  let e : ℝ := 1 / 10000000
  have he : e ≠ 0 := by simp only [e]; norm_num
  refine ⟨!![e, 0, 0, 0; 0, e, 0, 0; 0, 0, e, e], _, ?_, mtx_vec_wedge_small junk _ [] u x le_rfl ?_, ?_⟩
  · rw [Fintype.linearIndependent_iff]
    intro g hg
    have h0 := congrFun hg 0
    have h1 := congrFun hg 1
    have h2 := congrFun hg 2
    simp [Fin.sum_univ_three, Matrix.row, he] at h0 h1 h2
    intro i
    fin_cases i <;> assumption
  · intro i j
    have h0 : |(0 : ℝ)| < 1 / 1000000 := by norm_num
    have h1 : |e| < 1 / 1000000 := by simp only [e]; norm_num [abs_of_pos]
    fin_cases i <;> fin_cases j <;> first | exact h0 | exact h1
  · have hd : (wedgeMat (n := 3) !![e, 0, 0, 0; 0, e, 0, 0; 0, 0, e, e]).det = e ^ 3 := by
      have hw : wedgeMat (n := 3) !![e, 0, 0, 0; 0, e, 0, 0; 0, 0, e, e] =
          !![e, 0, 0, 0; 0, e, 0, 0; 0, 0, e, e; 0, 0, 0, 1] := by
        ext i j
        fin_cases i <;> fin_cases j <;> rfl
      rw [hw]
      simp [Matrix.det_succ_row_zero, Fin.sum_univ_succ, Fin.succAbove]
      ring
    rw [hd, Finset.sum_eq_single (Fin.last 3)]
    · rw [if_pos rfl]
      change e * e ^ 3 ≠ 0
      positivity
    · intro b _ hb
      rw [if_neg hb, mul_zero]
    · simp

/-- C35. Shapes other than `n - 1` vectors of size `n >= 4` are refused and the output is unchanged. -/
theorem mtx_vec_wedge_shape (junk : ℕ → R) (m : Mtx R) (v : Vec R)
    (h : v.sz ≠ m.cols ∨ v.sz < 4 ∨ m.rows + 1 ≠ m.cols) (hc : m.cols ≠ 0) : mtxVecWedge junk m v = ok (-EINVAL, v) := by
  unfold mtxVecWedge
  rw [if_pos]
  rw [szSub_le (by omega)]
  omega

/-- Non-vacuity of `mtx_vec_wedge_partial`. -/
example : (∀ i j, |(!![1, 2, 0, 1; 0, 3, -1, 2; 1, 0, 1, 0] : Matrix (Fin 3) (Fin 4) ℤ) i j| ≤ (3 : ℕ)) ∧
    (wedgeMat (!![1, 2, 0, 1; 0, 3, -1, 2; 1, 0, 1, 0] : Matrix (Fin 3) (Fin 4) ℤ)).det ≠ 0 ∧
    Nat.factorial 4 * (2 * 3) ^ 4 ≤ 1000000 := by
  refine ⟨by decide +kernel, by decide +kernel, by decide +kernel⟩

end Verif
