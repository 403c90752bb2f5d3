import Verif.Lemmas.Round
import Verif.Lemmas.Agree
import Verif.Lemmas.Permanent
import Verif.Props.Matrices4

/-!
# The determinant in floating point: the computed number and its error
-/

set_option linter.unusedSectionVars false

namespace Verif

open Out

variable {F : Rounding} {n : ℕ}

/-- `x` is a computed approximation of `y` after `k` roundings of quantities of total size `p`. -/
def Err (u : ℝ) (k : ℕ) (x y p : ℝ) : Prop := |y| ≤ p ∧ |x - y| ≤ gam u k * p

namespace Err

variable {k l : ℕ} {x y p x' y' p' : ℝ}

theorem p_nonneg (h : Err F.u k x y p) : 0 ≤ p := (abs_nonneg _).trans h.1

theorem exact (F : Rounding) (x : ℝ) : Err F.u 0 x x |x| := ⟨le_rfl, by simp [gam]⟩

theorem mono (h : Err F.u k x y p) (hkl : k ≤ l) : Err F.u l x y p :=
  ⟨h.1, h.2.trans (mul_le_mul_of_nonneg_right (gam_mono F hkl) h.p_nonneg)⟩

theorem size (h : Err F.u k x y p) : |x| ≤ (1 + gam F.u k) * p := by
  have := abs_add_le (x - y) y
  rw [sub_add_cancel] at this
  linarith [h.1, h.2]

theorem gam_add (F : Rounding) (k l : ℕ) : (1 + gam F.u k) * (1 + gam F.u l) = 1 + gam F.u (k + l) := by
  unfold gam
  rw [add_sub_cancel, add_sub_cancel, add_sub_cancel, pow_add, mul_inv]

theorem mul (h : Err F.u k x y p) (h' : Err F.u l x' y' p') : Err F.u (k + l) (x * x') (y * y') (p * p') := by
  have hp := h.p_nonneg
  have hp' := h'.p_nonneg
  refine ⟨by rw [abs_mul]; exact mul_le_mul h.1 h'.1 (abs_nonneg _) hp, ?_⟩
  have e : x * x' - y * y' = (x - y) * x' + y * (x' - y') := by ring
  have h1 : |(x - y) * x'| ≤ gam F.u k * p * ((1 + gam F.u l) * p') := by
    rw [abs_mul]
    exact mul_le_mul h.2 h'.size (abs_nonneg _) (mul_nonneg (gam_nonneg F.u_nonneg F.u_lt k) hp)
  have h2 : |y * (x' - y')| ≤ p * (gam F.u l * p') := by
    rw [abs_mul]
    exact mul_le_mul h.1 h'.2 (abs_nonneg _) hp
  have e2 := gam_add F k l
  have : gam F.u (k + l) * (p * p') = gam F.u k * p * ((1 + gam F.u l) * p') + p * (gam F.u l * p') := by
    have : gam F.u (k + l) = (1 + gam F.u k) * (1 + gam F.u l) - 1 := by rw [e2]; ring
    rw [this]
    ring
  rw [e, this]
  exact (abs_add_le _ _).trans (add_le_add h1 h2)

theorem add (h : Err F.u k x y p) (h' : Err F.u k x' y' p') : Err F.u k (x + x') (y + y') (p + p') := by
  refine ⟨(abs_add_le _ _).trans (add_le_add h.1 h'.1), ?_⟩
  rw [show x + x' - (y + y') = (x - y) + (x' - y') by ring, mul_add]
  exact (abs_add_le _ _).trans (add_le_add h.2 h'.2)

theorem neg (h : Err F.u k x y p) : Err F.u k (-x) (-y) p :=
  ⟨by rw [abs_neg]; exact h.1, by rw [show -x - -y = -(x - y) by ring, abs_neg]; exact h.2⟩

theorem sub (h : Err F.u k x y p) (h' : Err F.u k x' y' p') : Err F.u k (x - x') (y - y') (p + p') := by
  rw [sub_eq_add_neg, sub_eq_add_neg]
  exact h.add h'.neg

theorem rnd (h : Err F.u k x y p) : Err F.u (k + 1) (F.rnd x) y p := by
  refine ⟨h.1, ?_⟩
  obtain ⟨s, hs, e⟩ := F.near x
  have h1 : |F.rnd x - x| ≤ gam F.u 1 * |x| := by
    rw [e, show x * s - x = (s - 1) * x by ring, abs_mul]
    exact mul_le_mul_of_nonneg_right (hs.abs_sub_one F.u_nonneg F.u_lt) (abs_nonneg _)
  have g1 := gam_nonneg F.u_nonneg F.u_lt 1
  have h2 := mul_le_mul_of_nonneg_left h.size g1
  have e2 := gam_add F k 1
  have h3 : gam F.u (k + 1) * p = gam F.u 1 * ((1 + gam F.u k) * p) + gam F.u k * p := by
    have : gam F.u (k + 1) = (1 + gam F.u k) * (1 + gam F.u 1) - 1 := by rw [e2]; ring
    rw [this]
    ring
  have h4 := abs_add_le (F.rnd x - x) (x - y)
  rw [sub_add_sub_cancel] at h4
  linarith [h.2]

theorem congr (h : Err F.u k x y p) (hy : y = y') (hp : p = p') : Err F.u k x y' p' := by subst hy hp; exact h

end Err

/-- A sum accumulated with rounding. -/
noncomputable def fsum (F : Rounding) (f : ℕ → ℝ) : ℕ → ℝ
  | 0 => 0
  | g + 1 => F.rnd (fsum F f g + f g)

/-- The 3x3 determinant as computed. -/
noncomputable def fdet3 (F : Rounding) (A : Matrix (Fin 3) (Fin 3) ℝ) : ℝ :=
  F.rnd (F.rnd (F.rnd (A 0 0 * F.rnd (F.rnd (A 1 1 * A 2 2) - F.rnd (A 2 1 * A 1 2))) -
    F.rnd (A 1 0 * F.rnd (F.rnd (A 0 1 * A 2 2) - F.rnd (A 2 1 * A 0 2)))) +
    F.rnd (A 2 0 * F.rnd (F.rnd (A 0 1 * A 1 2) - F.rnd (A 1 1 * A 0 2))))

/-- The number that the recursion computes. -/
noncomputable def fdet (F : Rounding) : (n : ℕ) → Matrix (Fin (n + 1)) (Fin (n + 1)) ℝ → ℝ
  | 0, A => A 0 0
  | 1, A => F.rnd (F.rnd (A 0 0 * A 1 1) - F.rnd (A 1 0 * A 0 1))
  | 2, A => fdet3 F A
  | n + 3, A => fsum F (fun j => if h : j < n + 4 then
      F.rnd (F.rnd (fdet F (n + 2) (A.submatrix Fin.succ (Fin.succAbove ⟨j, h⟩)) * A 0 ⟨j, h⟩) * (-1) ^ j) else 0) (n + 4)

theorem matF_rd {r c : ℕ} (A : Matrix (Fin r) (Fin c) ℝ) (t : List (FX F)) (k : ℕ) (i : Fin r) (j : Fin c)
    (hk : k = i * c + j) : rd (matF F A t).data k = ok (FX.of F (A i j)) := by
  unfold matF
  rw [mtxOf_eq, mkM_data, hk, mkD_rd _ _ i.2 j.2, ext_fin]
  rfl

@[simp] theorem matF_rows {r c : ℕ} (A : Matrix (Fin r) (Fin c) ℝ) (t : List (FX F)) : (matF F A t).rows = r := rfl
@[simp] theorem matF_cols {r c : ℕ} (A : Matrix (Fin r) (Fin c) ℝ) (t : List (FX F)) : (matF F A t).cols = c := rfl

theorem fsign (F : Rounding) (g : ℕ) : (if g % 2 ≠ 0 then (lit (-1) : FX F) else lit 1) = FX.of F ((-1) ^ g) := by
  rcases Nat.even_or_odd g with he | ho
  · rw [if_neg (by rw [Nat.even_iff] at he; omega), he.neg_one_pow, FX.lit_eq]
    simp [F.one]
  · rw [if_pos (by rw [Nat.odd_iff] at ho; omega), ho.neg_one_pow, FX.lit_eq]
    simp [F.neg_one]

theorem mtxDeter3x3_F (A : Matrix (Fin 3) (Fin 3) ℝ) (t : List (FX F)) (d : FX F) :
    mtxDeter3x3 (matF F A t) d = ok (0, FX.of F (fdet3 F A)) := by
  unfold mtxDeter3x3
  rw [if_neg (by simp), if_neg (by simp)]
  rw [matF_rd A t 0 0 0 rfl, matF_rd A t 1 0 1 rfl, matF_rd A t 2 0 2 rfl, matF_rd A t 3 1 0 rfl,
    matF_rd A t 4 1 1 rfl, matF_rd A t 5 1 2 rfl, matF_rd A t 6 2 0 rfl, matF_rd A t 7 2 1 rfl, matF_rd A t 8 2 2 rfl]
  simp only [ok_bind, pure_eq, FX.of_mul, FX.of_sub, FX.of_add]
  rfl

theorem mtxDeterN_F (junk : ℕ → FX F) (n : ℕ) : ∀ (fuel : ℕ) (A : Matrix (Fin (n + 1)) (Fin (n + 1)) ℝ)
    (t : List (FX F)) (d : FX F), n < fuel → mtxDeterN fuel junk (matF F A t) d = ok (0, FX.of F (fdet F n A)) := by
  induction n with
  | zero =>
    intro fuel A t d hf
    obtain ⟨fuel, rfl⟩ := Nat.exists_eq_succ_of_ne_zero (by omega : fuel ≠ 0)
    rw [mtxDeterN, if_pos (by rfl), matF_rd A t 0 0 0 rfl]
    rfl
  | succ n ih =>
    intro fuel A t d hf
    obtain ⟨fuel, rfl⟩ := Nat.exists_eq_succ_of_ne_zero (by omega : fuel ≠ 0)
    rw [mtxDeterN]
    rw [if_neg (by simp)]
    rcases n with _ | _ | n
    · rw [if_pos (by rfl), matF_rd A t 0 0 0 rfl, matF_rd A t 3 1 1 rfl, matF_rd A t 2 1 0 rfl, matF_rd A t 1 0 1 rfl]
      simp only [ok_bind, pure_eq, FX.of_mul, FX.of_sub]
      rfl
    · rw [if_neg (by simp), if_pos (by rfl)]
      exact mtxDeter3x3_F A t d
    rw [if_neg (by simp), if_neg (by simp), if_neg (by simp)]
    set f : ℕ → ℝ := fun j => if h : j < n + 4 then
      F.rnd (F.rnd (fdet F (n + 2) (A.submatrix Fin.succ (Fin.succAbove ⟨j, h⟩)) * A 0 ⟨j, h⟩) * (-1) ^ j) else 0 with hf'
    have hloop := forRet_sat (n := n + 4) (ρ := Int × FX F)
      (f := fun g (s : FX F × FX F × FX F × Mtx (FX F)) => do
        let (d, dtmp, cur, mr) := s
        let (_, cur) ← mtxGet (matF F A t) 0 g cur
        let (_, mr) ← mtxInit mr none
        let (_, mr) ← mtxReduce junk (junk 0) (matF F A t) mr 0 g
        let (rc, dtmp) ← mtxDeterN fuel junk mr dtmp
        if rc ≠ 0 then return Ctl.ret (-EINVAL, d)
        else
          let sign : FX F := if g % 2 ≠ 0 then lit (-1) else lit 1
          return Ctl.next (d + dtmp * cur * sign, dtmp, cur, mr))
      (s := (lit 0, junk 0, junk 0, ⟨(matF F A t).rows - 1, (matF F A t).rows - 1,
          List.replicate (((matF F A t).rows - 1) * ((matF F A t).rows - 1)) (lit 0)⟩))
      (fun g s => s.1 = FX.of F (fsum F f g) ∧
        ∃ B : Matrix (Fin (n + 3)) (Fin (n + 3)) (FX F), s.2.2.2 = mtxOf B []) (fun _ => False) (by
          refine ⟨by simp [fsum, F.rnd_zero], Matrix.of fun _ _ => lit 0, ?_⟩
          simp [mtxOf, -List.ofFn_succ]) (by
          rintro g hg ⟨d, dtmp, cur, mr⟩ ⟨h1, B, hB⟩
          dsimp only at h1 hB ⊢
          obtain ⟨gg, rfl⟩ : ∃ gg : Fin (n + 4), gg.val = g := ⟨⟨g, hg⟩, rfl⟩
          have hget := mtx_get_correct (A.map (FX.of F)) t cur 0 gg
          change mtxGet (matF F A t) 0 gg cur = _ at hget
          rw [hget]
          simp only [ok_bind]
          rw [hB, mtx_init_null]
          simp only [ok_bind]
          have hred := mtx_reduce_correct junk (junk 0) (A.map (FX.of F))
            (Matrix.of fun (_ : Fin (n + 3)) (_ : Fin (n + 3)) => lit 0) t [] 0 gg (by omega)
          change mtxReduce junk (junk 0) (matF F A t) _ 0 gg = ok (0, matF F (A.submatrix _ _) []) at hred
          rw [hred]
          simp only [ok_bind]
          rw [ih fuel _ _ _ (by omega)]
          simp only [ok_bind, ne_eq, not_true_eq_false, if_false, pure_eq, sat_ok]
          refine ⟨?_, _, rfl⟩
          have hs := fsign F gg.val
          simp only [ne_eq] at hs
          rw [h1, hs]
          simp only [Matrix.map_apply, FX.of_mul, FX.of_add]
          rw [show (Fin.succAbove 0 : Fin (n + 3) → Fin (n + 4)) = Fin.succ from funext Fin.zero_succAbove]
          rw [fsum, hf']
          simp only [gg.2, dif_pos, Fin.eta])
    obtain ⟨c, hc, hP⟩ := hloop
    rw [matF_cols, hc]
    rcases c with ⟨d', rest⟩ | r
    · obtain ⟨h1, _⟩ := hP
      simp only [ok_bind, pure_eq]
      dsimp only at h1
      rw [h1]
      rfl
    · exact absurd hP (by simp)

theorem mtxDeter_F (junk : ℕ → FX F) (A : Matrix (Fin (n + 1)) (Fin (n + 1)) ℝ) (t : List (FX F)) (d : FX F) :
    mtxDeter junk (matF F A t) d = ok (0, FX.of F (fdet F n A)) :=
  mtxDeterN_F junk n _ A t d (by rw [matF_rows]; omega)

/-! ### The error -/

theorem fsum_err (f y p : ℕ → ℝ) (k : ℕ) (hr : ∀ j, F.rnd (f j) = f j) (h : ∀ j, Err F.u k (f j) (y j) (p j)) (g : ℕ) :
    Err F.u (k + g) (fsum F f (g + 1)) (∑ j ∈ Finset.range (g + 1), y j) (∑ j ∈ Finset.range (g + 1), p j) := by
  induction g with
  | zero => simpa [fsum, hr] using h 0
  | succ g ih =>
    rw [fsum, Finset.sum_range_succ, Finset.sum_range_succ _ (g + 1)]
    exact (ih.add ((h _).mono (by omega))).rnd

theorem fminor (F : Rounding) (a b c d : ℝ) : Err F.u 2 (F.rnd (F.rnd (a * b) - F.rnd (c * d))) (a * b - c * d) (|a| * |b| + |c| * |d|) :=
  (((Err.exact F a).mul (Err.exact F b)).rnd.sub ((Err.exact F c).mul (Err.exact F d)).rnd).rnd

theorem perm2 (A : Matrix (Fin 2) (Fin 2) ℝ) : (A.map abs).permanent = |A 0 0| * |A 1 1| + |A 1 0| * |A 0 1| := by
  rw [permanent_succ_row_zero]
  simp [Fin.sum_univ_two, Matrix.permanent_unique, Fin.succAbove]
  ring

theorem perm3 (A : Matrix (Fin 3) (Fin 3) ℝ) : (A.map abs).permanent =
    |A 0 0| * (|A 1 1| * |A 2 2| + |A 2 1| * |A 1 2|) + |A 1 0| * (|A 0 1| * |A 2 2| + |A 2 1| * |A 0 2|) +
      |A 2 0| * (|A 0 1| * |A 1 2| + |A 1 1| * |A 0 2|) := by
  rw [permanent_succ_row_zero]
  simp only [Matrix.submatrix_map]
  simp only [perm2, Fin.sum_univ_three]
  simp [Fin.succAbove]
  ring

theorem fdet3_err (F : Rounding) (A : Matrix (Fin 3) (Fin 3) ℝ) : Err F.u 5 (fdet3 F A) A.det (A.map abs).permanent := by
  unfold fdet3
  have h0 := ((Err.exact F (A 0 0)).mul (fminor F (A 1 1) (A 2 2) (A 2 1) (A 1 2))).rnd
  have h1 := ((Err.exact F (A 1 0)).mul (fminor F (A 0 1) (A 2 2) (A 2 1) (A 0 2))).rnd
  have h2 := ((Err.exact F (A 2 0)).mul (fminor F (A 0 1) (A 1 2) (A 1 1) (A 0 2))).rnd
  refine ((h0.sub h1).rnd.add (h2.mono (by omega))).rnd.congr ?_ ?_
  · rw [Matrix.det_fin_three]
    ring
  · rw [perm3]

theorem fdet_err (F : Rounding) (n : ℕ) : ∀ A : Matrix (Fin (n + 1)) (Fin (n + 1)) ℝ,
    Err F.u ((n + 1) * (n + 4) / 2) (fdet F n A) A.det (A.map abs).permanent := by
  induction n with
  | zero =>
    intro A
    refine ((Err.exact F (A 0 0)).mono (by omega)).congr ?_ ?_
    · simp
    · simp [Matrix.permanent_unique]
  | succ n ih =>
    intro A
    rcases n with _ | _ | n
    · refine ((fminor F (A 0 0) (A 1 1) (A 1 0) (A 0 1)).mono (by omega)).congr ?_ ?_
      · rw [Matrix.det_fin_two]
        ring
      · rw [perm2]
    · exact (fdet3_err F A).mono (by omega)
    · set K := (n + 2 + 1) * (n + 2 + 4) / 2 with hK
      have hK' : (n + 2 + 1 + 1) * (n + 2 + 1 + 4) / 2 = K + 2 + (n + 3) := by
        have e : (n + 2 + 1 + 1) * (n + 2 + 1 + 4) = (n + 2 + 1) * (n + 2 + 4) + 2 * (n + 5) := by ring
        rw [e, Nat.add_mul_div_left _ _ (by norm_num)]
        omega
      rw [hK']
      rw [fdet]
      have h := fsum_err (F := F) (fun j => if h : j < n + 4 then
          F.rnd (F.rnd (fdet F (n + 2) (A.submatrix Fin.succ (Fin.succAbove ⟨j, h⟩)) * A 0 ⟨j, h⟩) * (-1) ^ j) else 0)
        (fun j => if h : j < n + 4 then (A.submatrix Fin.succ (Fin.succAbove ⟨j, h⟩)).det * A 0 ⟨j, h⟩ * (-1) ^ j else 0)
        (fun j => if h : j < n + 4 then ((A.submatrix Fin.succ (Fin.succAbove ⟨j, h⟩)).map abs).permanent * |A 0 ⟨j, h⟩| * 1 else 0)
        (K + 2) (fun j => by
          split_ifs with h
          · exact F.idem _
          · exact F.rnd_zero) (fun j => by
          split_ifs with h
          · have hs : Err F.u 0 ((-1 : ℝ) ^ j) ((-1) ^ j) 1 := by simpa using Err.exact F ((-1 : ℝ) ^ j)
            exact (((ih _).mul (Err.exact F (A 0 ⟨j, h⟩))).rnd.mul hs).rnd
          · exact (Err.exact F 0).mono (by omega) |>.congr rfl (by simp)) (n + 3)
      refine h.congr ?_ ?_
      · rw [Finset.sum_range, Matrix.det_succ_row_zero]
        refine Finset.sum_congr rfl fun j _ => ?_
        simp only [j.2, dif_pos, Fin.eta]
        ring
      · rw [Finset.sum_range, permanent_succ_row_zero]
        refine Finset.sum_congr rfl fun j _ => ?_
        simp only [j.2, dif_pos, Fin.eta, Matrix.map_apply, Matrix.submatrix_map]
        ring

end Verif
