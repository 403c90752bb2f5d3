import Mathlib.Algebra.Quaternion
import Verif.Model.Quaternions
import Verif.Props.Round10

/-!
# Quaternions of integers (C160)
-/

namespace Verif

open Out
open scoped Quaternion

variable {p : ℕ} {lib : Libm}

/-- A quaternion of integers, in the arithmetic. -/
noncomputable def quatZ (p : ℕ) (lib : Libm) (a : ℍ[ℤ]) : Quat (FX (nearestRounding p lib)) :=
  ⟨numZ p lib a.re, numZ p lib a.imI, numZ p lib a.imJ, numZ p lib a.imK⟩

/-- Sum of the absolute values of the components. -/
def sizeZ (a : ℍ[ℤ]) : ℤ := |a.re| + |a.imI| + |a.imJ| + |a.imK|

theorem numZ_four {x y z w : ℤ} (h : |x| + |y| + |z| + |w| < 2 ^ (p + 1)) :
    (numZ p lib x - numZ p lib y - numZ p lib z - numZ p lib w = numZ p lib (x - y - z - w)) ∧
    (numZ p lib x + numZ p lib y + numZ p lib z - numZ p lib w = numZ p lib (x + y + z - w)) ∧
    (numZ p lib x - numZ p lib y + numZ p lib z + numZ p lib w = numZ p lib (x - y + z + w)) ∧
    (numZ p lib x + numZ p lib y - numZ p lib z + numZ p lib w = numZ p lib (x + y - z + w)) := by
  obtain ⟨h1, h2⟩ := abs_le.1 (le_refl |x|)
  obtain ⟨h3, h4⟩ := abs_le.1 (le_refl |y|)
  obtain ⟨h5, h6⟩ := abs_le.1 (le_refl |z|)
  obtain ⟨h7, h8⟩ := abs_le.1 (le_refl |w|)
  have n1 := abs_nonneg x
  have n2 := abs_nonneg y
  have n3 := abs_nonneg z
  have n4 := abs_nonneg w
  refine ⟨?_, ?_, ?_, ?_⟩
  · rw [numZ_sub (abs_lt.2 ⟨by omega, by omega⟩), numZ_sub (abs_lt.2 ⟨by omega, by omega⟩), numZ_sub (abs_lt.2 ⟨by omega, by omega⟩)]
  · rw [numZ_add (abs_lt.2 ⟨by omega, by omega⟩), numZ_add (abs_lt.2 ⟨by omega, by omega⟩), numZ_sub (abs_lt.2 ⟨by omega, by omega⟩)]
  · rw [numZ_sub (abs_lt.2 ⟨by omega, by omega⟩), numZ_add (abs_lt.2 ⟨by omega, by omega⟩), numZ_add (abs_lt.2 ⟨by omega, by omega⟩)]
  · rw [numZ_add (abs_lt.2 ⟨by omega, by omega⟩), numZ_sub (abs_lt.2 ⟨by omega, by omega⟩), numZ_add (abs_lt.2 ⟨by omega, by omega⟩)]

/-- C160. The product of two quaternions of integers, the order of the factors and all signs included, is computed without error if the
product of their sums of absolute values has at most `p + 1` digits. -/
theorem quat_mult_integers (a b : ℍ[ℤ]) (h : sizeZ a * sizeZ b < 2 ^ (p + 1)) :
    quatMult (quatZ p lib a) (quatZ p lib b) = quatZ p lib (a * b) := by
  have hexp : sizeZ a * sizeZ b =
      (|a.re * b.re| + |a.imI * b.imI| + |a.imJ * b.imJ| + |a.imK * b.imK|) +
      (|a.re * b.imI| + |a.imI * b.re| + |a.imJ * b.imK| + |a.imK * b.imJ|) +
      (|a.re * b.imJ| + |a.imI * b.imK| + |a.imJ * b.re| + |a.imK * b.imI|) +
      (|a.re * b.imK| + |a.imI * b.imJ| + |a.imJ * b.imI| + |a.imK * b.re|) := by
    simp only [abs_mul, sizeZ]
    ring
  rw [hexp] at h
  have hm : ∀ x y : ℤ, |x * y| < 2 ^ (p + 1) → numZ p lib x * numZ p lib y = numZ p lib (x * y) := fun x y hxy => numZ_mul hxy
  have hn : ∀ x y : ℤ, 0 ≤ |x * y| := fun x y => abs_nonneg _
  have := hn a.re b.re; have := hn a.re b.imI; have := hn a.re b.imJ; have := hn a.re b.imK
  have := hn a.imI b.re; have := hn a.imI b.imI; have := hn a.imI b.imJ; have := hn a.imI b.imK
  have := hn a.imJ b.re; have := hn a.imJ b.imI; have := hn a.imJ b.imJ; have := hn a.imJ b.imK
  have := hn a.imK b.re; have := hn a.imK b.imI; have := hn a.imK b.imJ; have := hn a.imK b.imK
  unfold quatMult quatZ
  simp only [Quat.mk.injEq]
  refine ⟨?_, ?_, ?_, ?_⟩
  · rw [hm _ _ (by omega), hm _ _ (by omega), hm _ _ (by omega), hm _ _ (by omega), (numZ_four (by omega)).1, Quaternion.re_mul]
  · rw [hm _ _ (by omega), hm _ _ (by omega), hm _ _ (by omega), hm _ _ (by omega), (numZ_four (by omega)).2.1, Quaternion.imI_mul]
  · rw [hm _ _ (by omega), hm _ _ (by omega), hm _ _ (by omega), hm _ _ (by omega), (numZ_four (by omega)).2.2.1, Quaternion.imJ_mul]
  · rw [hm _ _ (by omega), hm _ _ (by omega), hm _ _ (by omega), hm _ _ (by omega), (numZ_four (by omega)).2.2.2, Quaternion.imK_mul]

/-- C160. The conjugate of a quaternion of integers is exact, and so is a multiple if its components have at most `p + 1` digits. -/
theorem quat_conj_scale_integers (a : ℍ[ℤ]) (s : ℤ) :
    (sizeZ a < 2 ^ (p + 1) → quatConj (quatZ p lib a) = quatZ p lib (star a)) ∧
    (sizeZ a * |s| < 2 ^ (p + 1) → quatScale (quatZ p lib a) (numZ p lib s) = quatZ p lib (s • a)) := by
  have n1 := abs_nonneg a.re
  have n2 := abs_nonneg a.imI
  have n3 := abs_nonneg a.imJ
  have n4 := abs_nonneg a.imK
  constructor
  · intro h
    unfold sizeZ at h
    have hl : (lit (-1) : FX (nearestRounding p lib)) = numZ p lib (-1) := by
      have h1 : |(-1 : ℤ)| < 2 ^ (p + 1) := by
        have : (1 : ℤ) < 2 ^ (p + 1) := one_lt_pow₀ (by norm_num) (by omega)
        simpa using this
      have h2 := rnd_int p lib h1
      rw [FX.lit_eq, numZ]
      congr 1
    unfold quatConj quatZ
    rw [hl, numZ_mul (by rw [abs_mul]; simp; omega), numZ_mul (by rw [abs_mul]; simp; omega), numZ_mul (by rw [abs_mul]; simp; omega)]
    simp
  · intro h
    unfold sizeZ at h
    have m1 := mul_nonneg n1 (abs_nonneg s)
    have m2 := mul_nonneg n2 (abs_nonneg s)
    have m3 := mul_nonneg n3 (abs_nonneg s)
    have m4 := mul_nonneg n4 (abs_nonneg s)
    simp only [add_mul] at h
    unfold quatScale quatZ
    rw [numZ_mul (by rw [abs_mul]; omega), numZ_mul (by rw [abs_mul]; omega), numZ_mul (by rw [abs_mul]; omega),
      numZ_mul (by rw [abs_mul]; omega)]
    simp [mul_comm]

theorem sizeZ_mul (a b : ℍ[ℤ]) : sizeZ (a * b) ≤ sizeZ a * sizeZ b := by
  have h4 : ∀ x y z w : ℤ, |x - y - z - w| ≤ |x| + |y| + |z| + |w| ∧ |x + y + z - w| ≤ |x| + |y| + |z| + |w| ∧
      |x - y + z + w| ≤ |x| + |y| + |z| + |w| ∧ |x + y - z + w| ≤ |x| + |y| + |z| + |w| := by
    intro x y z w
    obtain ⟨h1, h2⟩ := abs_le.1 (le_refl |x|)
    obtain ⟨h3, h4⟩ := abs_le.1 (le_refl |y|)
    obtain ⟨h5, h6⟩ := abs_le.1 (le_refl |z|)
    obtain ⟨h7, h8⟩ := abs_le.1 (le_refl |w|)
    refine ⟨abs_le.2 ⟨?_, ?_⟩, abs_le.2 ⟨?_, ?_⟩, abs_le.2 ⟨?_, ?_⟩, abs_le.2 ⟨?_, ?_⟩⟩ <;> omega
  have e1 := (h4 (a.re * b.re) (a.imI * b.imI) (a.imJ * b.imJ) (a.imK * b.imK)).1
  have e2 := (h4 (a.re * b.imI) (a.imI * b.re) (a.imJ * b.imK) (a.imK * b.imJ)).2.1
  have e3 := (h4 (a.re * b.imJ) (a.imI * b.imK) (a.imJ * b.re) (a.imK * b.imI)).2.2.1
  have e4 := (h4 (a.re * b.imK) (a.imI * b.imJ) (a.imJ * b.imI) (a.imK * b.re)).2.2.2
  simp only [abs_mul] at e1 e2 e3 e4
  unfold sizeZ
  rw [Quaternion.re_mul, Quaternion.imI_mul, Quaternion.imJ_mul, Quaternion.imK_mul]
  linarith

/-- C160. A chain of products of quaternions of integers, multiplied one after the other from the left, is the product, if the product of
the sums of absolute values has at most `p + 1` digits. -/
theorem quat_chain_integers (l : List ℍ[ℤ]) (a : ℍ[ℤ]) (h1 : ∀ b ∈ l, 1 ≤ sizeZ b) (h : sizeZ a * (l.map sizeZ).prod < 2 ^ (p + 1)) :
    l.foldl (fun q b => quatMult q (quatZ p lib b)) (quatZ p lib a) = quatZ p lib (a * l.prod) := by
  induction l generalizing a with
  | nil => simp
  | cons b l ih =>
    have hb : 1 ≤ sizeZ b := h1 b (by simp)
    have hl : ∀ c ∈ l, 1 ≤ sizeZ c := fun c hc => h1 c (by simp [hc])
    have hprod : 1 ≤ (l.map sizeZ).prod := by
      clear ih h h1
      induction l with
      | nil => simp
      | cons c l ih2 =>
        rw [List.map_cons, List.prod_cons]
        have := hl c (by simp)
        have := ih2 fun d hd => hl d (by simp [hd])
        nlinarith
    have ha : 0 ≤ sizeZ a := by unfold sizeZ; positivity
    rw [List.map_cons, List.prod_cons, ← mul_assoc] at h
    have hab : sizeZ a * sizeZ b < 2 ^ (p + 1) := by
      refine lt_of_le_of_lt ?_ h
      exact le_mul_of_one_le_right (mul_nonneg ha (by omega)) hprod
    rw [List.foldl_cons, quat_mult_integers a b hab, ih (a * b) hl, List.prod_cons, mul_assoc]
    refine lt_of_le_of_lt ?_ h
    exact mul_le_mul_of_nonneg_right (sizeZ_mul a b) (by omega)

/-- The hypotheses are met: `(1 + 2i - 3j + 4k) (5 - 6i + 7j + 8k)` in single precision. -/
example (lib : Libm) (a b : ℍ[ℤ]) (ha : a = ⟨1, 2, -3, 4⟩) (hb : b = ⟨5, -6, 7, 8⟩) :
    quatMult (quatZ 23 lib a) (quatZ 23 lib b) = quatZ 23 lib (a * b) ∧ (a * b).re = 6 :=
  ⟨quat_mult_integers _ _ (by subst ha hb; norm_num [sizeZ]), by rw [Quaternion.re_mul, ha, hb]; norm_num⟩

end Verif
