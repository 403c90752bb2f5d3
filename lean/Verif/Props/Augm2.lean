import Verif.Props.Matrices3

/-!
# Augmentation to a matrix that is too small (C21)
-/

set_option linter.unusedSectionVars false

namespace Verif

open Out

variable {R : Type} [CReal R] {n k : ℕ}

/-- C21. `zsl_mtx_augm_diag` with an output that is smaller than the matrix: the size difference wraps around, the stores to indices outside the
output are refused one by one, and the call returns 0 with the lower-right block of the matrix in the output, instead of an error. -/
theorem mtx_augm_diag_smaller (x0 : R) (A : Matrix (Fin k) (Fin k) R) (B : Matrix (Fin n) (Fin n) R)
    (t u : List R) (hkn : n < k) (hsz : k < SIZE_MOD) :
    mtxAugmDiag x0 (mtxOf A t) (mtxOf B u) = ok (0, mtxOf (A.submatrix (fun a : Fin n => (⟨k - n + a, by omega⟩ : Fin k))
      (fun b : Fin n => (⟨k - n + b, by omega⟩ : Fin k))) u) := by
  have hsub : szSub n k = SIZE_MOD - (k - n) := if_neg (by omega)
  have hlow : ∀ i, i < k - n → szAdd i (SIZE_MOD - (k - n)) = SIZE_MOD - (k - n) + i := fun i hi => by
    unfold szAdd
    rw [Nat.mod_eq_of_lt (by omega), Nat.add_comm]
  have hhigh : ∀ i, k - n ≤ i → i < k → szAdd i (SIZE_MOD - (k - n)) = i - (k - n) := fun i hi hik => by
    unfold szAdd
    rw [show i + (SIZE_MOD - (k - n)) = i - (k - n) + SIZE_MOD by omega, Nat.add_mod_right, Nat.mod_eq_of_lt (by omega)]
  unfold mtxAugmDiag
  simp only [mtxOf_rows]
  rw [mtx_init_identity, hsub]
  simp only [ok_bind]
  have hloop : (forN k (fun i s =>
      forN k (fun j (s : R × Mtx R) => do
        let (x, maug) := s
        let (_, x) ← mtxGet (mtxOf A t) i j x
        let (_, maug) ← mtxSet maug (szAdd i (SIZE_MOD - (k - n))) (szAdd j (SIZE_MOD - (k - n))) x
        return (x, maug)) s)
      (x0, mtxOf (Matrix.of fun (i : Fin n) (j : Fin n) => if i.val = j.val then lit 1 else lit 0) u)).sat
      (fun s => s.2 = mkM n n (fun a b => ext A (k - n + a) (k - n + b)) u) := by
    rw [mtxOf_eq A t]
    refine (forN_sat (fun i s => s.2 = mkM n n (fun a b =>
      if k - n + a < i then ext A (k - n + a) (k - n + b) else if a = b then lit 1 else lit 0) u) ?_ ?_).mono ?_
    · dsimp only
      symm
      refine mkM_eq_mtxOf (r := n) (c := n) _ fun a b => ?_
      simp
    · rintro i hi ⟨x, m⟩ h1
      refine (forN_sat (fun j s => s.2 = mkM n n (fun a b =>
        if k - n + a < i ∨ (k - n + a = i ∧ k - n + b < j) then
          ext A (k - n + a) (k - n + b) else if a = b then lit 1 else lit 0) u) ?_ ?_).mono ?_
      · rw [h1]
        apply mkM_congr
        intro a _ b _
        simp
      · rintro j hj ⟨x, m⟩ h2
        dsimp only at h2 ⊢
        rw [h2, mkM_get _ _ _ hi hj]
        simp only [ok_bind]
        by_cases hin : k - n ≤ i ∧ k - n ≤ j
        · rw [hhigh i hin.1 hi, hhigh j hin.2 hj, mkM_set _ _ _ (by omega) (by omega)]
          simp only [ok_bind, pure_eq, sat_ok]
          apply mkM_congr
          intro a _ b _
          unfold upd
          by_cases hab : a = i - (k - n) ∧ b = j - (k - n)
          · rw [if_pos hab, if_pos (by omega), show k - n + a = i by omega, show k - n + b = j by omega]
          · rw [if_neg hab]
            exact if_congr (by omega) rfl rfl
        · have hout : mtxSet (mkM n n (fun a b =>
              if k - n + a < i ∨ (k - n + a = i ∧ k - n + b < j) then
                ext A (k - n + a) (k - n + b) else if a = b then lit 1 else lit 0) u)
              (szAdd i (SIZE_MOD - (k - n))) (szAdd j (SIZE_MOD - (k - n))) (ext A i j) =
              ok (-EINVAL, mkM n n (fun a b =>
              if k - n + a < i ∨ (k - n + a = i ∧ k - n + b < j) then
                ext A (k - n + a) (k - n + b) else if a = b then lit 1 else lit 0) u) := by
            unfold mtxSet
            refine if_pos ?_
            simp only [mkM_rows, mkM_cols]
            by_cases h3 : i < k - n
            · rw [hlow i h3]
              left
              omega
            · rw [hlow j (by omega)]
              right
              omega
          rw [hout]
          simp only [ok_bind, pure_eq, sat_ok]
          apply mkM_congr
          intro a _ b _
          exact if_congr (by omega) rfl rfl
      · rintro ⟨x, m⟩ h2
        rw [h2]
        apply mkM_congr
        intro a _ b _
        exact if_congr (by omega) rfl rfl
    · rintro ⟨x, m⟩ h1
      rw [h1]
      apply mkM_congr
      intro a _ b _
      rw [if_pos (by omega)]
  obtain ⟨⟨x, m⟩, h1, h2⟩ := hloop
  rw [h1]
  simp only [ok_bind, pure_eq]
  dsimp only at h2
  rw [h2, mkM_eq_mtxOf]
  intro a b
  rw [ext_lt _ (by omega) (by omega)]
  rfl

/-- The hypotheses are met: a 3x3 matrix and a 2x2 output. -/
example (x0 : R) (A : Matrix (Fin 3) (Fin 3) R) (B : Matrix (Fin 2) (Fin 2) R) :
    mtxAugmDiag x0 (mtxOf A []) (mtxOf B []) = ok (0, mtxOf (A.submatrix (fun a : Fin 2 => (⟨3 - 2 + a, by omega⟩ : Fin 3))
      (fun b : Fin 2 => (⟨3 - 2 + b, by omega⟩ : Fin 3))) []) :=
  mtx_augm_diag_smaller x0 A B [] [] (by norm_num) (by norm_num [SIZE_MOD])

end Verif
