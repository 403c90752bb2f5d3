import Mathlib.LinearAlgebra.Matrix.Determinant.Basic
import Verif.Props.Matrices2

/-! # Helper lemmas: minors and the determinant -/

set_option linter.unusedSectionVars false

namespace Verif

open Out

variable {R : Type} [CReal R]

theorem szAdd_lt {a b : ℕ} (h : a + b < SIZE_MOD) : szAdd a b = a + b := by
  unfold szAdd
  rw [Nat.mod_eq_of_lt h]

/-- Number of indices below `k` other than `i`. -/
def kept (i k : ℕ) : ℕ := if k ≤ i then k else k - 1

/-- The `a`-th index other than `i`. -/
def skip (i a : ℕ) : ℕ := if a < i then a else a + 1

theorem skip_kept {i k : ℕ} (h : k ≠ i) : skip i (kept i k) = k := by
  unfold skip kept
  split_ifs <;> omega

theorem kept_succ_ne {i k : ℕ} (h : k ≠ i) : kept i (k + 1) = kept i k + 1 := by
  unfold kept
  split_ifs <;> omega

theorem kept_succ_eq (i : ℕ) : kept i (i + 1) = kept i i := by
  unfold kept
  split_ifs <;> omega

theorem kept_lt {i k n : ℕ} (h : k ≠ i) (hk : k < n + 1) (hi : i < n + 1) : kept i k < n := by
  unfold kept
  split_ifs <;> omega

theorem mkM_reduce (junk : ℕ → R) (x0 : R) {n : ℕ} (f h : ℕ → ℕ → R) (t u : List R) {i j : ℕ}
    (hn : 0 < n) (hi : i < n + 1) (hj : j < n + 1) :
    mtxReduce junk x0 (mkM (n + 1) (n + 1) f t) (mkM n n h u) i j =
      ok (0, mkM n n (fun a b => f (skip i a) (skip j b)) u) := by
  unfold mtxReduce
  rw [if_neg (by simp; omega), if_neg (by simp [szSub_le (by omega : 1 ≤ n + 1)]),
    if_neg (by simp [szSub_le (by omega : 1 ≤ n + 1)]), if_neg (by simp; omega), mkM_rows, mkM_rows]
  obtain ⟨g, hg⟩ := mkD_of_length (r := n) (c := n) (junkArr junk (n * n)) (by simp [junkArr])
  have htail : (junkArr junk (n * n)).drop (n * n) = [] :=
    List.drop_eq_nil_of_le (by simp [junkArr])
  rw [htail] at hg
  have hloop : (forN (n + 1) (fun k (s : Nat × R × List R) =>
      forN (n + 1) (fun g (s : Nat × R × List R) => do
        let (u, x, v) := s
        if k ≠ i ∧ g ≠ j then do
          let (_, x) ← mtxGet (mkM (n + 1) (n + 1) f t) k g x
          let v ← wr v u x
          return (u + 1, x, v)
        else return (u, x, v)) s) (0, x0, junkArr junk (n * n))).sat (fun s =>
          s.2.2 = mkD n n (fun a b => f (skip i a) (skip j b)) []) := by
    refine (forN_sat (fun k s => s.1 = kept i k * n ∧
      s.2.2 = mkD n n (fmix n s.1 (fun a b => f (skip i a) (skip j b)) g) []) ?_ ?_).mono ?_
    · exact ⟨by simp [kept], by simp only [fmix_zero]; exact hg⟩
    · rintro k hk ⟨u, x, v⟩ ⟨h1, h2⟩
      dsimp only at h1 h2
      by_cases hki : k = i
      · refine (forN_sat (fun _ s => s = (u, x, v)) rfl ?_).mono ?_
        · rintro b hb _ rfl
          dsimp only
          rw [if_neg (by simp [hki])]
          simp
        · rintro _ rfl
          refine ⟨?_, h2⟩
          dsimp only
          rw [h1, hki, kept_succ_eq]
      · refine (forN_sat (fun b s => s.1 = kept i k * n + kept j b ∧
          s.2.2 = mkD n n (fmix n s.1 (fun a b => f (skip i a) (skip j b)) g) []) ?_ ?_).mono ?_
        · refine ⟨?_, h2⟩
          simp [kept, h1]
        · rintro b hb ⟨u, x, v⟩ ⟨h3, h4⟩
          dsimp only at h3 h4 ⊢
          by_cases hbj : b = j
          · rw [if_neg (by simp [hbj])]
            simp only [pure_eq, sat_ok]
            refine ⟨?_, h4⟩
            rw [h3, hbj, kept_succ_eq]
          · rw [if_pos ⟨hki, hbj⟩, mkM_get _ _ _ hk hb]
            simp only [ok_bind]
            have hkk := kept_lt hki hk hi
            have hkb := kept_lt hbj hb hj
            have hu : u < n * n := by rw [h3]; exact flat_lt hkk hkb
            have hw := mkD_fmix_wr (fun a b => f (skip i a) (skip j b)) g [] hu
            simp only [h3, flat_div hkb, flat_mod hkb, skip_kept hki, skip_kept hbj] at hw
            rw [h4, h3, hw]
            simp only [ok_bind, pure_eq, sat_ok]
            refine ⟨?_, trivial⟩
            rw [kept_succ_ne hbj]
            omega
        · rintro ⟨u, x, v⟩ ⟨h3, h4⟩
          refine ⟨?_, h4⟩
          dsimp only at h3 ⊢
          rw [h3, kept_succ_ne hki, Nat.add_mul, Nat.one_mul]
          congr 1
          unfold kept
          split_ifs <;> omega
    · rintro ⟨u, x, v⟩ ⟨h1, h2⟩
      dsimp only at h1 h2 ⊢
      rw [h2]
      have : u = n * n := by
        rw [h1]
        congr 1
        unfold kept
        split_ifs <;> omega
      rw [this, mkD_fmix_full]
  obtain ⟨⟨u', x', v'⟩, h1, h2⟩ := hloop
  dsimp only at h2
  rw [h1]
  simp only [ok_bind]
  unfold mtxFromArr
  rw [h2, mkM_rows, mkM_cols, memcpyAt_eq (by simp) (by simp)]
  simp only [ok_bind, pure_eq, mkM_data, List.drop_zero, mkD_take, mkD_drop, mkD_nil_append]
  rfl

theorem skip_succAbove {n : ℕ} (i : Fin (n + 1)) (a : Fin n) : skip i a = (i.succAbove a).val := by
  unfold skip Fin.succAbove
  simp only [Fin.lt_def, Fin.val_castSucc]
  split_ifs <;> simp

end Verif
