import Verif.Lemmas.MultGen
import Verif.Lemmas.VecReal
import Verif.Spec.Nearest

/-!
# Sums with rounding
-/

namespace Verif

open Out

variable {F : Rounding} {n : ℕ}

theorem Close.mul' {k l : ℕ} {s t : ℝ} (F : Rounding) (hs : Close F.u k s) (ht : Close F.u l t) : Close F.u (k + l) (s * t) :=
  hs.mul F.u_nonneg F.u_lt ht

/-- The accumulated sum of rounded terms. -/
theorem accSum_rnd (F : Rounding) (f : ℕ → ℝ) (n : ℕ) : ∃ t : ℕ → ℝ, (∀ i < n, Close F.u n (t i)) ∧
    accSum (fun k => FX.of F (F.rnd (f k))) n = FX.of F (∑ k ∈ Finset.range n, f k * t k) := by
  have h0 := F.u_nonneg
  have h1 := F.u_lt
  induction n with
  | zero => exact ⟨fun _ => 1, by simp, by simp [accSum, F.rnd_zero]⟩
  | succ n ih =>
    obtain ⟨t, ht, e⟩ := ih
    rcases Nat.eq_zero_or_pos n with rfl | hn
    · obtain ⟨s, hs, es⟩ := F.near (f 0)
      refine ⟨fun _ => s, fun _ _ => hs, ?_⟩
      simp [accSum, F.rnd_zero, F.idem, ← es]
    · obtain ⟨s, hs, es⟩ := F.near (f n)
      obtain ⟨r, hr, er⟩ := F.near ((∑ k ∈ Finset.range n, f k * t k) + F.rnd (f n))
      refine ⟨fun k => if k < n then t k * r else s * r, fun i hi => ?_, ?_⟩
      · dsimp only
        split_ifs with h
        · exact (ht i h).mul h0 h1 hr
        · exact (hs.mul h0 h1 hr).mono h0 h1 (by omega)
      · change accSum _ n + _ = _
        rw [e, FX.of_add, er, es, Finset.sum_range_succ]
        simp only [lt_irrefl, if_false]
        rw [add_mul, Finset.sum_mul]
        congr 2
        · refine Finset.sum_congr rfl fun k hk => ?_
          rw [if_pos (Finset.mem_range.1 hk)]
          ring
        · ring

/-- The accumulated sum of given numbers. -/
theorem accSum_plain (F : Rounding) (f : ℕ → ℝ) (n : ℕ) : ∃ t : ℕ → ℝ, (∀ i < n, Close F.u n (t i)) ∧
    accSum (fun k => FX.of F (f k)) n = FX.of F (∑ k ∈ Finset.range n, f k * t k) := by
  have h0 := F.u_nonneg
  have h1 := F.u_lt
  induction n with
  | zero => exact ⟨fun _ => 1, by simp, by simp [accSum, F.rnd_zero]⟩
  | succ n ih =>
    obtain ⟨t, ht, e⟩ := ih
    obtain ⟨r, hr, er⟩ := F.near ((∑ k ∈ Finset.range n, f k * t k) + f n)
    refine ⟨fun k => if k < n then t k * r else r, fun i hi => ?_, ?_⟩
    · dsimp only
      split_ifs with h
      · exact (ht i h).mul h0 h1 hr
      · exact hr.mono h0 h1 (by omega)
    · change accSum _ n + _ = _
      rw [e, FX.of_add, er, Finset.sum_range_succ]
      simp only [lt_irrefl, if_false]
      rw [add_mul, Finset.sum_mul]
      congr 2
      refine Finset.sum_congr rfl fun k hk => ?_
      rw [if_pos (Finset.mem_range.1 hk)]
      ring

/-- A weighted sum with factors close to one. -/
theorem sum_close_err {u : ℝ} {k : ℕ} (h0 : 0 ≤ u) (h1 : u < 1) (x t : Fin n → ℝ) (ht : ∀ i, Close u k (t i)) :
    |∑ i, x i * t i - ∑ i, x i| ≤ gam u k * ∑ i, |x i| := by
  rw [← Finset.sum_sub_distrib, Finset.mul_sum]
  refine (Finset.abs_sum_le_sum_abs _ _).trans (Finset.sum_le_sum fun i _ => ?_)
  rw [show x i * t i - x i = (t i - 1) * x i by ring, abs_mul]
  exact mul_le_mul_of_nonneg_right ((ht i).abs_sub_one h0 h1) (abs_nonneg _)

/-- A sum of nonnegative terms with factors close to one is close to the sum. -/
theorem sum_close_near {u : ℝ} {k : ℕ} (h0 : 0 ≤ u) (h1 : u < 1) (x t : Fin n → ℝ) (hx : ∀ i, 0 ≤ x i) (ht : ∀ i, Close u k (t i)) :
    Near u k (∑ i, x i * t i) (∑ i, x i) := by
  have hl : (1 - u) ^ k * ∑ i, x i ≤ ∑ i, x i * t i := by
    rw [Finset.mul_sum]
    exact Finset.sum_le_sum fun i _ => by rw [mul_comm]; exact mul_le_mul_of_nonneg_left (ht i).1 (hx i)
  have hu : ∑ i, x i * t i ≤ ((1 - u) ^ k)⁻¹ * ∑ i, x i := by
    rw [Finset.mul_sum]
    exact Finset.sum_le_sum fun i _ => by rw [mul_comm _ (x i)]; exact mul_le_mul_of_nonneg_left (ht i).2 (hx i)
  rcases (Finset.sum_nonneg fun i (_ : i ∈ Finset.univ) => hx i).eq_or_lt with h | h
  · refine ⟨1, close_one h0 h1, ?_⟩
    rw [← h] at hl hu ⊢
    linarith
  · refine ⟨(∑ i, x i * t i) / ∑ i, x i, ⟨?_, ?_⟩, by field_simp⟩
    · rwa [le_div_iff₀ h]
    · rwa [div_le_iff₀ h]

/-! ### `Near` -/

section near
variable (F) {k l : ℕ} {x y x' y' : ℝ}

theorem Near.refl (x : ℝ) : Near F.u k x x := ⟨1, close_one F.u_nonneg F.u_lt, by ring⟩

theorem Near.mono' (h : Near F.u k x y) (hkl : k ≤ l) : Near F.u l x y := by
  obtain ⟨t, ht, e⟩ := h
  exact ⟨t, ht.mono F.u_nonneg F.u_lt hkl, e⟩

theorem Near.rnd (h : Near F.u k x y) : Near F.u (k + 1) (F.rnd x) y := by
  obtain ⟨t, ht, rfl⟩ := h
  obtain ⟨s, hs, e⟩ := F.near (y * t)
  exact ⟨t * s, ht.mul' F hs, by rw [e]; ring⟩

theorem Near.mul (h : Near F.u k x y) (h' : Near F.u l x' y') : Near F.u (k + l) (x * x') (y * y') := by
  obtain ⟨t, ht, rfl⟩ := h
  obtain ⟨s, hs, rfl⟩ := h'
  exact ⟨t * s, ht.mul' F hs, by ring⟩

theorem Near.div (h : Near F.u k x y) (h' : Near F.u l x' y') : Near F.u (k + l) (x / x') (y / y') := by
  obtain ⟨t, ht, rfl⟩ := h
  obtain ⟨s, hs, rfl⟩ := h'
  exact ⟨t * s⁻¹, ht.mul' F (hs.inv F.u_nonneg F.u_lt), by rw [mul_div_mul_comm, div_eq_mul_inv t s]⟩

theorem Near.neg (h : Near F.u k x y) : Near F.u k (-x) (-y) := by
  obtain ⟨t, ht, rfl⟩ := h
  exact ⟨t, ht, by ring⟩

theorem Near.sqrt (h : Near F.u k x y) (hy : 0 ≤ y) : Near F.u k (Real.sqrt x) (Real.sqrt y) := by
  obtain ⟨t, ht, rfl⟩ := h
  exact ⟨Real.sqrt t, ht.sqrt F.u_nonneg F.u_lt, Real.sqrt_mul hy t⟩

theorem Near.nonneg (h : Near F.u k x y) (hy : 0 ≤ y) : 0 ≤ x := by
  obtain ⟨t, ht, rfl⟩ := h
  exact mul_nonneg hy (ht.pos F.u_nonneg F.u_lt).le

theorem Near.pos (h : Near F.u k x y) (hy : 0 < y) : 0 < x := by
  obtain ⟨t, ht, rfl⟩ := h
  exact mul_pos hy (ht.pos F.u_nonneg F.u_lt)

theorem Near.ne_zero (h : Near F.u k x y) (hy : y ≠ 0) : x ≠ 0 := by
  obtain ⟨t, ht, rfl⟩ := h
  exact mul_ne_zero hy (ht.pos F.u_nonneg F.u_lt).ne'

theorem Near.ne_zero_iff (h : Near F.u k x y) : x = 0 ↔ y = 0 := by
  obtain ⟨t, ht, rfl⟩ := h
  simp [(ht.pos F.u_nonneg F.u_lt).ne']

/-- The sum of two numbers of the same sign. -/
theorem Near.add_nonneg (h : Near F.u k x y) (h' : Near F.u k x' y') (hy : 0 ≤ y) (hy' : 0 ≤ y') : Near F.u k (x + x') (y + y') := by
  obtain ⟨t, ht, rfl⟩ := h
  obtain ⟨s, hs, rfl⟩ := h'
  have := sum_close_near F.u_nonneg F.u_lt ![y, y'] ![t, s] (k := k) (by intro i; fin_cases i <;> assumption) (by intro i; fin_cases i <;> assumption)
  simpa using this

theorem Near.err (h : Near F.u k x y) : |x - y| ≤ gam F.u k * |y| := h.abs_sub_le F.u_nonneg F.u_lt

end near

/-! ### Vectors and matrices -/

/-- A vector buffer of finite numbers. -/
def vecF (F : Rounding) (x : Fin n → ℝ) (t : List (FX F)) : Vec (FX F) := vecOf (fun i => FX.of F (x i)) t

/-- A matrix buffer of finite numbers. -/
def matF (F : Rounding) {p q : ℕ} (A : Matrix (Fin p) (Fin q) ℝ) (t : List (FX F)) : Mtx (FX F) := mtxOf (A.map (FX.of F)) t

theorem vecOf_rd {R : Type} (x : Fin n → R) (t : List R) (i : Fin n) : rd (vecOf x t).data i = ok (x i) := by
  refine rd_of ?_
  unfold vecOf arrOf
  simp [List.getElem?_append_left]

theorem vecOf_vals {R : Type} (x : Fin n → R) (t : List R) : (vecOf x t).vals = List.ofFn x := by
  unfold vecOf arrOf Vec.vals
  simp

/-- A summation loop over the elements of a vector. -/
theorem forN_accSum {R : Type} [CReal R] (f : ℕ → R) (g : ℕ → R → Out R) (hg : ∀ i < n, ∀ a, g i a = ok (a + f i)) :
    forN n g (lit 0) = ok (accSum f n) := by
  induction n with
  | zero => simp [accSum]
  | succ n ih => rw [forN_succ, ih (fun i hi a => hg i (by omega) a), ok_bind, hg n (by omega)]; rfl

theorem accSum_congr {R : Type} [CReal R] {f g : ℕ → R} (h : ∀ i < n, f i = g i) : accSum f n = accSum g n := by
  induction n with
  | zero => rfl
  | succ n ih => rw [accSum, accSum, ih fun i hi => h i (by omega), h n (by omega)]

/-- A real sequence that continues the vector `x` by zeros. -/
def seqOf (x : Fin n → ℝ) (k : ℕ) : ℝ := if h : k < n then x ⟨k, h⟩ else 0

theorem seqOf_fin (x : Fin n → ℝ) (i : Fin n) : seqOf x i = x i := by simp [seqOf]

theorem vecDot_F (F : Rounding) (x y : Fin n → ℝ) (t s : List (FX F)) (d : FX F) :
    ∃ w : Fin n → ℝ, (∀ i, Close F.u n (w i)) ∧ vecDot (vecF F x t) (vecF F y s) d = ok (0, FX.of F (∑ i, x i * y i * w i)) := by
  obtain ⟨w, hw, e⟩ := accSum_rnd F (seqOf fun i => x i * y i) n
  refine ⟨fun i => w i, fun i => hw i i.isLt, ?_⟩
  unfold vecDot
  rw [if_neg (by simp [vecF])]
  rw [show (vecF F x t).sz = n from rfl, forN_accSum (fun k => FX.of F (F.rnd (seqOf (fun i => x i * y i) k))), e, Finset.sum_range]
  · simp only [seqOf_fin]
    rfl
  · intro i hi a
    have h1 := vecOf_rd (fun i => FX.of F (x i)) t ⟨i, hi⟩
    have h2 := vecOf_rd (fun i => FX.of F (y i)) s ⟨i, hi⟩
    simp only at h1 h2
    unfold vecF
    rw [h1, ok_bind, h2, ok_bind]
    simp [seqOf, hi]

end Verif
