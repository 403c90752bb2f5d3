import Verif.Spec.Elim
import Mathlib.Tactic.LinearCombination

/-! # What the elimination arrives at -/

namespace Verif

open Matrix

variable {n : ℕ}

/-- The first `k` columns are reduced. -/
def Rref (k : ℕ) (M : Matrix (Fin n) (Fin n) ℝ) : Prop :=
  ∀ j : Fin n, j.val < k → (M j j = 1 ∧ ∀ i, i ≠ j → M i j = 0) ∨ (M j j = 0 ∧ ∀ i, M i j ≠ 0 → i < j ∧ M i i = 1)

theorem Rref.low {k : Fin n} {M : Matrix (Fin n) (Fin n) ℝ} (h : Rref k M) (q : Fin n) (hq : k ≤ q ∨ M q q = 0) (j : Fin n)
    (hj : j < k) : M q j = 0 := by
  rcases h j hj with ⟨h1, h2⟩ | ⟨h1, h2⟩
  · by_cases hqj : q = j
    · subst hqj
      rcases hq with h | h
      · exact absurd hj (not_lt.2 h)
      · exact h
    · exact h2 q hqj
  · by_contra h3
    obtain ⟨h4, h5⟩ := h2 q h3
    rcases hq with h | h
    · exact absurd (lt_trans h4 hj) (not_lt.2 h)
    · rw [h] at h5
      norm_num at h5

theorem Rref.pivot {k : Fin n} {M : Matrix (Fin n) (Fin n) ℝ} (h : Rref k M) (hrow : ∀ j, j < k → M k j = 0)
    (hcol : ∀ q, M q k = 0 ∨ 1 / 1000000 ≤ |M q k|) (hk : 1 / 1000000 ≤ |M k k|) :
    Rref (k.val + 1) (stepMat M k * M) := by
  have hk0 : M k k ≠ 0 := ne_zero_of_not_small (not_lt.2 hk)
  have he : ∀ a b, (stepMat M k * M) a b = if a = k then M k b / M k k else M a b - M a k / M k k * M k b := by
    intro a b
    unfold stepMat
    rw [if_neg (not_lt.2 hk), Matrix.mul_assoc, normMat_mul]
    have hm : ∀ c, mulOf M k k c = if c = k then 0 else M c k / M k k := by
      intro c
      unfold mulOf
      by_cases hc : c = k
      · rw [if_pos hc, if_neg (by simp [hc])]
      · rw [if_neg hc]
        rcases hcol c with h0 | h0
        · rw [h0, zero_div, ite_self]
        · rw [if_pos ⟨hc, h0⟩]
    by_cases ha : a = k
    · rw [if_pos ha, if_pos ha, elimMat_mul, hm, if_pos rfl, zero_mul, sub_zero]
    · rw [if_neg ha, if_neg ha, elimMat_mul, hm, if_neg ha]
  intro j hj
  rcases Nat.lt_succ_iff_lt_or_eq.1 hj with hj | hj
  · have hsame : ∀ i, (stepMat M k * M) i j = M i j := by
      intro i
      rw [he, hrow j hj, mul_zero, sub_zero, zero_div]
      split_ifs with hi
      · rw [hi, hrow j hj]
      · rfl
    rcases h j hj with ⟨h1, h2⟩ | ⟨h1, h2⟩
    · left
      refine ⟨by rw [hsame, h1], fun i hi => by rw [hsame, h2 i hi]⟩
    · right
      refine ⟨by rw [hsame, h1], fun i hi => ?_⟩
      rw [hsame] at hi
      obtain ⟨h3, h4⟩ := h2 i hi
      refine ⟨h3, ?_⟩
      have hik : i < k := lt_trans h3 hj
      rw [he, if_neg (ne_of_lt hik), hrow i hik, mul_zero, sub_zero, h4]
  · obtain rfl : j = k := Fin.ext hj
    left
    refine ⟨by rw [he, if_pos rfl, div_self hk0], fun i hi => ?_⟩
    rw [he, if_neg hi, div_mul_cancel₀ _ hk0, sub_self]

theorem Rref.step {k : Fin n} {M Q : Matrix (Fin n) (Fin n) ℝ} (h : Rref k M) (hcol : ∀ q, M q k = 0 ∨ 1 / 1000000 ≤ |M q k|)
    (hQ : PivotRow M k Q) : Rref (k.val + 1) (stepMat (Q * M) k * (Q * M)) := by
  have hz : |M k k| < 1 / 1000000 → M k k = 0 := fun hlt => (hcol k).resolve_right (not_le.2 hlt)
  rcases hQ with ⟨h1, rfl⟩ | ⟨h1, rfl, h2⟩ | ⟨h1, q, hq, h2, h3, rfl⟩
  · rw [one_mul]
    exact h.pivot (h.low k (Or.inl le_rfl)) hcol h1
  · rw [one_mul]
    unfold stepMat
    rw [if_pos h1, one_mul]
    intro j hj
    rcases Nat.lt_succ_iff_lt_or_eq.1 hj with hj | hj
    · exact h j hj
    · obtain rfl : j = k := Fin.ext hj
      right
      refine ⟨hz h1, fun i hi => ?_⟩
      have h4 := (hcol i).resolve_left hi
      obtain ⟨h5, h6⟩ := (h2 i).resolve_left (not_lt.2 h4)
      refine ⟨h5, ?_⟩
      rcases h i h5 with ⟨h7, _⟩ | ⟨h7, _⟩
      · exact h7
      · rw [h7] at h6
        norm_num at h6
  · have he : ∀ a b, (Matrix.transvection k q (1 : ℝ) * M) a b = if a = k then M k b + M q b else M a b := by
      intro a b
      unfold Matrix.transvection
      rw [Matrix.add_mul, Matrix.one_mul, Matrix.add_apply]
      by_cases ha : a = k
      · subst ha
        rw [Matrix.single_mul_apply_same, if_pos rfl, one_mul]
      · rw [Matrix.single_mul_apply_of_ne _ _ _ _ _ ha, if_neg ha, add_zero]
    have hq0 : k ≤ q ∨ M q q = 0 := by
      by_cases hqk : q < k
      · right
        rcases h q hqk with ⟨h4, _⟩ | ⟨h4, _⟩
        · exact absurd ⟨hqk, by rw [h4]; norm_num⟩ h3
        · exact h4
      · exact Or.inl (not_lt.1 hqk)
    have hrow : ∀ j, j < k → M k j + M q j = 0 := fun j hj => by
      rw [h.low k (Or.inl le_rfl) j hj, h.low q hq0 j hj, add_zero]
    have hkk : M k k = 0 := hz h1
    refine Rref.pivot ?_ ?_ ?_ ?_
    · have hsame : ∀ i j, j < k → (Matrix.transvection k q (1 : ℝ) * M) i j = M i j := by
        intro i j hj
        rw [he]
        split_ifs with hi
        · rw [hi, hrow j hj, h.low k (Or.inl le_rfl) j hj]
        · rfl
      intro j hj
      rcases h j hj with ⟨h4, h5⟩ | ⟨h4, h5⟩
      · left
        exact ⟨by rw [hsame _ _ hj, h4], fun i hi => by rw [hsame _ _ hj, h5 i hi]⟩
      · right
        refine ⟨by rw [hsame _ _ hj, h4], fun i hi => ?_⟩
        rw [hsame _ _ hj] at hi
        obtain ⟨h6, h7⟩ := h5 i hi
        exact ⟨h6, by rw [hsame _ _ (lt_trans h6 hj), h7]⟩
    · intro j hj
      rw [he, if_pos rfl, hrow j hj]
    · intro a
      rw [he]
      split_ifs with ha
      · rw [hkk, zero_add]
        exact hcol q
      · exact hcol a
    · rw [he, if_pos rfl, hkk, zero_add]
      exact h2

/-- The reduced matrix: a multiple of the matrix by an invertible matrix, reduced. -/
theorem mtxGaussReduc_rref (junk : ℕ → XR) (A : Matrix (Fin n) (Fin n) ℝ) (B C : Matrix (Fin n) (Fin n) XR) (t u w : List XR)
    (hn : 0 < n) (hA : NoTiny A) : ∃ (P G : Matrix (Fin n) (Fin n) ℝ) (N : Matrix (Fin n) (Fin n) XR), IsUnit P ∧ G = P * A ∧
      Rref n G ∧ mtxGaussReduc junk (mat A t) (mtxOf B u) (mtxOf C w) = Out.ok (0, mtxOf N u, mat G w) := by
  obtain ⟨G, ⟨hr, hG, P, hP, hPG⟩, N, h⟩ := mtxGaussReduc_any junk A B C t u w hn
    (fun k M => Reach A k M ∧ Rref k M ∧ ∃ P, IsUnit P ∧ M = P * A) ⟨.start, fun j hj => absurd hj (Nat.not_lt_zero _), 1, isUnit_one,
      (one_mul _).symm⟩ (by
      rintro k M Q ⟨h1, h2, P, hP, h3⟩ hQ
      refine ⟨.step k M Q h1 hQ, h2.step (hA k M h1) hQ, stepMat (Q * M) k * Q * P, ?_, ?_⟩
      · exact ((stepMat_isUnit _ _).mul hQ.isUnit).mul hP
      · rw [h3, Matrix.mul_assoc, Matrix.mul_assoc, ← h3])
  exact ⟨P, G, N, hP, hPG, hG, h⟩

/-! ### The solutions of the reduced system -/

/-- The solution that belongs to a column without pivot. -/
def nullVec (G : Matrix (Fin n) (Fin n) ℝ) (h : Fin n) : Fin n → ℝ := fun i => if i = h then 1 else -G i h

/-- The columns without pivot. -/
noncomputable def freeCols (G : Matrix (Fin n) (Fin n) ℝ) : List (Fin n) :=
  open Classical in (List.finRange n).filter fun h => decide (|G h h| < 1 / 1000000)

theorem Rref.diag {G : Matrix (Fin n) (Fin n) ℝ} (h : Rref n G) (j : Fin n) : G j j = 1 ∨ G j j = 0 := by
  rcases h j j.2 with ⟨h1, _⟩ | ⟨h1, _⟩
  · exact Or.inl h1
  · exact Or.inr h1

theorem Rref.mem_free {G : Matrix (Fin n) (Fin n) ℝ} (h : Rref n G) (j : Fin n) : j ∈ freeCols G ↔ G j j = 0 := by
  classical
  unfold freeCols
  simp only [List.mem_filter, List.mem_finRange, true_and, decide_eq_true_eq]
  rcases h.diag j with h1 | h1 <;> rw [h1] <;> norm_num

theorem nullVec_eq {G : Matrix (Fin n) (Fin n) ℝ} {h : Fin n} (h0 : G h h = 0) : nullVec G h = Pi.single h 1 - G.col h := by
  funext i
  unfold nullVec
  by_cases hi : i = h
  · subst hi
    simp [h0]
  · simp [hi]

theorem Rref.idem {G : Matrix (Fin n) (Fin n) ℝ} (h : Rref n G) : G * G = G := by
  ext i j
  rw [Matrix.mul_apply]
  rcases h j j.2 with ⟨h1, h2⟩ | ⟨h1, h2⟩
  · rw [Finset.sum_eq_single j]
    · rw [h1, mul_one]
    · intro b _ hb
      rw [h2 b hb, mul_zero]
    · simp
  · have : ∀ a, G i a * G a j = if a = i then G i j else 0 := by
      intro a
      by_cases ha : G a j = 0
      · rw [ha, mul_zero]
        split_ifs with hai
        · rw [← hai, ha]
        · rfl
      · obtain ⟨_, h3⟩ := h2 a ha
        rcases h a a.2 with ⟨_, h5⟩ | ⟨h4, _⟩
        · by_cases hia : a = i
          · subst hia
            rw [if_pos rfl, h3, one_mul]
          · rw [if_neg hia, h5 i (Ne.symm hia), zero_mul]
        · rw [h4] at h3
          norm_num at h3
    simp only [this]
    simp

/-- The solutions that belong to the columns without pivot are a basis of all solutions. -/
theorem Rref.kerBasis {P A G : Matrix (Fin n) (Fin n) ℝ} (hP : IsUnit P) (hG : G = P * A) (h : Rref n G) :
    KerBasis A ((freeCols G).map (nullVec G)) := by
  classical
  have hker : ∀ x, A *ᵥ x = 0 ↔ G *ᵥ x = 0 := by
    intro x
    rw [hG, ← Matrix.mulVec_mulVec]
    constructor
    · intro h1
      rw [h1, Matrix.mulVec_zero]
    · intro h1
      obtain ⟨P', hP'⟩ := hP
      have : (↑P'⁻¹ : Matrix (Fin n) (Fin n) ℝ) *ᵥ (P *ᵥ A *ᵥ x) = A *ᵥ x := by
        rw [Matrix.mulVec_mulVec, ← hP', ← Units.val_mul, inv_mul_cancel, Units.val_one, Matrix.one_mulVec]
      rw [← this, h1, Matrix.mulVec_zero]
  have hcoord : ∀ a b, G a a = 0 → G b b = 0 → nullVec G b a = if a = b then 1 else 0 := by
    intro a b ha hb
    unfold nullVec
    split_ifs with hab
    · rfl
    · rcases h b b.2 with ⟨h1, _⟩ | ⟨_, h2⟩
      · rw [hb] at h1
        norm_num at h1
      · by_contra h3
        have := (h2 a (fun h4 => h3 (by rw [h4, neg_zero]))).2
        rw [ha] at this
        norm_num at this
  refine ⟨?_, ?_, ?_⟩
  · intro v hv
    obtain ⟨j, hj, rfl⟩ := List.mem_map.1 hv
    rw [hker, nullVec_eq ((h.mem_free j).1 hj), Matrix.mulVec_sub, Matrix.mulVec_single_one, sub_eq_zero]
    have := congrFun (congrArg Matrix.col h.idem) j
    refine this.symm.trans ?_
    ext i
    simp [Matrix.mul_apply, Matrix.mulVec, dotProduct]
  · have hnd : (freeCols G).Nodup := (List.nodup_finRange n).filter _
    rw [Fintype.linearIndependent_iff]
    intro g hg i
    have hi : i.val < (freeCols G).length := by simpa using i.2
    have hfree : ∀ m (hm : m < (freeCols G).length), G (freeCols G)[m] (freeCols G)[m] = 0 := fun m hm =>
      (h.mem_free _).1 (List.getElem_mem hm)
    have := congrFun hg (freeCols G)[i.val]
    rw [Finset.sum_apply, Finset.sum_eq_single i] at this
    · simp only [List.get_eq_getElem, List.getElem_map, Pi.smul_apply, smul_eq_mul, Pi.zero_apply] at this
      rw [hcoord _ _ (hfree _ hi) (hfree _ hi), if_pos rfl, mul_one] at this
      exact this
    · intro b _ hb
      have hbl : b.val < (freeCols G).length := by simpa using b.2
      simp only [List.get_eq_getElem, List.getElem_map, Pi.smul_apply, smul_eq_mul]
      rw [hcoord _ _ (hfree _ hi) (hfree _ hbl), if_neg, mul_zero]
      intro he
      exact hb (Fin.ext ((hnd.getElem_inj_iff).1 he).symm)
    · simp
  · intro x hx
    rw [hker] at hx
    have hsum : x = ∑ j, x j • (Pi.single j 1 - G.col j) := by
      simp only [smul_sub]
      rw [Finset.sum_sub_distrib]
      have h1 : ∑ j, x j • G.col j = G *ᵥ x := by
        ext i
        simp [Matrix.mulVec, dotProduct, Finset.sum_apply, mul_comm]
      rw [h1, hx, sub_zero]
      ext i
      simp [Finset.sum_apply, Pi.single_apply]
    rw [hsum]
    refine Submodule.sum_mem _ fun j _ => ?_
    rcases h j j.2 with ⟨h1, h2⟩ | ⟨h1, _⟩
    · have : (Pi.single j 1 - G.col j : Fin n → ℝ) = 0 := by
        ext i
        by_cases hi : i = j
        · subst hi
          simp [h1]
        · simp [hi, h2 i hi]
      rw [this, smul_zero]
      exact Submodule.zero_mem _
    · refine Submodule.smul_mem _ _ (Submodule.subset_span ?_)
      exact List.mem_map.2 ⟨j, (h.mem_free j).2 h1, nullVec_eq h1⟩

end Verif
