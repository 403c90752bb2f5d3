import Verif.Props.Matrices2

/-!
# Matrix products for every kind of scalar, as the sums the loop forms
-/

namespace Verif

open Out

variable {R : Type} [CReal R] {p q n : ℕ}

/-- The sum the innermost loop accumulates. -/
def accSum (f : ℕ → R) : ℕ → R
  | 0 => lit 0
  | k + 1 => accSum f k + f k

theorem mtxMult_gen (A : Matrix (Fin p) (Fin n) R) (B : Matrix (Fin n) (Fin q) R) (C : Matrix (Fin p) (Fin q) R) (t u w : List R) :
    mtxMult (mtxOf A t) (mtxOf B u) (mtxOf C w) =
      ok (0, mtxOf (Matrix.of fun (i : Fin p) (j : Fin q) => accSum (fun k => ext A i k * ext B k j) n) w) := by
  unfold mtxMult
  rw [if_neg (by simp), if_neg (by simp), mtxOf_rows, mtxOf_cols, mtxOf_rows, mtxOf_cols, copyLocal_eq, copyLocal_eq]
  simp only [ok_bind, mtxOf_rows, mtxOf_cols]
  rw [mtxOf_eq C, mkM_data]
  rw [forN_fill2 (fun f => mkD p q f w) (fun f g h => mkD_congr h)
    (ext (Matrix.of fun (i : Fin p) (j : Fin q) => accSum (fun k => ext A i k * ext B k j) n))]
  · rw [mtxOf_eq (Matrix.of _)]
    rfl
  · intro i hi j hj
    generalize hg : mix i j _ _ = g
    rw [Nat.add_comm, mkD_wr _ _ _ hi hj, ok_bind]
    have key : ∀ k, k ≤ n → forN k (fun k d => do
        let acc ← rd d (i * q + j)
        let x ← rd (mtxOf A []).data (k + i * n)
        let y ← rd (mtxOf B []).data (j + k * q)
        wr d (i * q + j) (acc + x * y)) (mkD p q (upd g i j (lit 0)) w) =
        ok (mkD p q (upd g i j (accSum (fun k => ext A i k * ext B k j) k)) w) := by
      intro k
      induction k with
      | zero => intro _; simp [accSum]
      | succ k ih =>
        intro hk
        rw [forN_succ, ih (by omega), ok_bind, mkD_rd _ _ hi hj, ok_bind, mtxOf_eq, mtxOf_eq,
          mkM_data, mkM_data, Nat.add_comm k, Nat.add_comm j, mkD_rd _ _ hi (by omega), ok_bind,
          mkD_rd _ _ (by omega) hj, ok_bind, mkD_wr _ _ _ hi hj]
        congr 1
        apply mkD_congr
        intro a _ b _
        unfold upd
        by_cases hab : a = i ∧ b = j
        · rw [if_pos hab, if_pos hab]
          simp only [and_self, if_true]
          rfl
        · rw [if_neg hab, if_neg hab, if_neg hab]
    rw [key n le_rfl]
    congr 1
    rw [ext_lt _ hi hj]
    rfl

/-! ### Numbers that are not finite -/

/-- Not a real number: infinite or NaN. -/
def NotFin (x : XR) : Prop := ∀ r : ℝ, x ≠ XR.fin r

theorem notFin_pinf : NotFin XR.pinf := fun _ h => by cases h

theorem notFin_ninf : NotFin XR.ninf := fun _ h => by cases h

theorem notFin_nan : NotFin XR.nan := fun _ h => by cases h

theorem notFin_infOf (a : ℝ) : NotFin (XR.infOf a) := by
  unfold XR.infOf
  split_ifs
  · exact notFin_pinf
  · exact notFin_ninf
  · exact notFin_nan

theorem notFin_mul_left {x : XR} (y : XR) (h : NotFin x) : NotFin (x * y) := by
  change NotFin (XR.mul x y)
  cases x with
  | fin a => exact absurd rfl (h a)
  | pinf =>
    cases y with
    | fin b => exact notFin_infOf b
    | pinf => exact notFin_pinf
    | ninf => exact notFin_ninf
    | nan => exact notFin_nan
  | ninf =>
    cases y with
    | fin b => exact notFin_infOf (-b)
    | pinf => exact notFin_ninf
    | ninf => exact notFin_pinf
    | nan => exact notFin_nan
  | nan => cases y <;> exact notFin_nan

theorem notFin_mul_right (x : XR) {y : XR} (h : NotFin y) : NotFin (x * y) := by
  change NotFin (XR.mul x y)
  cases y with
  | fin a => exact absurd rfl (h a)
  | pinf =>
    cases x with
    | fin b => exact notFin_infOf b
    | pinf => exact notFin_pinf
    | ninf => exact notFin_ninf
    | nan => exact notFin_nan
  | ninf =>
    cases x with
    | fin b => exact notFin_infOf (-b)
    | pinf => exact notFin_ninf
    | ninf => exact notFin_pinf
    | nan => exact notFin_nan
  | nan => cases x <;> exact notFin_nan

theorem notFin_add_left {x : XR} (y : XR) (h : NotFin x) : NotFin (x + y) := by
  change NotFin (XR.add x y)
  cases x with
  | fin a => exact absurd rfl (h a)
  | pinf => cases y <;> first | exact notFin_pinf | exact notFin_nan
  | ninf => cases y <;> first | exact notFin_ninf | exact notFin_nan
  | nan => cases y <;> exact notFin_nan

theorem notFin_add_right (x : XR) {y : XR} (h : NotFin y) : NotFin (x + y) := by
  change NotFin (XR.add x y)
  cases y with
  | fin a => exact absurd rfl (h a)
  | pinf => cases x <;> first | exact notFin_pinf | exact notFin_nan
  | ninf => cases x <;> first | exact notFin_ninf | exact notFin_nan
  | nan => cases x <;> exact notFin_nan

/-- A sum with a term that is not finite is not finite. -/
theorem notFin_accSum (f : ℕ → XR) (n i : ℕ) (hi : i < n) (h : NotFin (f i)) : NotFin (accSum f n) := by
  induction n with
  | zero => omega
  | succ n ih =>
    rw [accSum]
    by_cases hn : i = n
    · subst hn
      exact notFin_add_right _ h
    · exact notFin_add_left _ (ih (by omega))

end Verif
