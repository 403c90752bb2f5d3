import Verif.Lemmas.LocusVal

/-!
# The black body locus: from the check to sums over the observer
-/

namespace Verif.LT

open EF Finset

theorem map_step (f : ℕ → ℕ) (m n : ℕ) :
    (List.range (m + 1)).map (fun j => f (n + 5 * j)) = f n :: (List.range m).map fun j => f (n + 5 + 5 * j) := by
  rw [List.range_succ_eq_map, List.map_cons, List.map_map]
  refine congrArg₂ _ (by simp) (List.map_congr_left fun j _ => ?_)
  simp only [Function.comp, Nat.succ_eq_add_one]
  congr 1
  ring

/-- The values as a list. -/
def vlist (τ er m n : ℕ) : List ℕ := (List.range m).map fun j => val τ er (n + 5 * j)

theorem vals_eq {α : Type} (τ er m : ℕ) : ∀ (n : ℕ) (k : List ℕ → α), vals τ er m n k = k (vlist τ er m n) := by
  induction m with
  | zero => intro n k; rw [vals]; rfl
  | succ m ih =>
    intro n k
    rw [vals, frc_eq, ih]
    exact congrArg k (map_step (val τ er) m n).symm

theorem vlist_length (τ er m n : ℕ) : (vlist τ er m n).length = m := by simp [vlist]

theorem vlist_getD {τ er m n k : ℕ} (hk : k < m) : (vlist τ er m n).getD k 0 = val τ er (n + 5 * k) := by
  rw [vlist, getD_lt (by simpa using hk)]
  simp

theorem dot_eq : ∀ (as bs : List ℕ) (n : ℕ), as.length = n → bs.length = n →
    dot as bs = ∑ k ∈ range n, as.getD k 0 * bs.getD k 0
  | [], [], n, h, _ => by simp at h; subst h; rfl
  | [], b :: bs, n, h1, h2 => by simp at h1 h2; omega
  | a :: as, [], n, h1, h2 => by simp at h1 h2; omega
  | a :: as, b :: bs, n, h1, h2 => by
    obtain ⟨m, rfl⟩ : ∃ m, n = m + 1 := ⟨as.length, by simpa using h1.symm⟩
    rw [dot, sum_range_succ', dot_eq as bs m (by simpa using h1) (by simpa using h2)]
    simp [add_comm]

theorem devs_spec (D0 D1 : ℕ) (k : ℕ → Bool) : ∀ (ds ps qs : List ℕ) (acc n : ℕ), ds.length = n → ps.length = n → qs.length = n →
    devs D0 D1 ds ps qs acc k = true →
    (∀ j < n, dev D0 D1 (ps.getD j 0) (qs.getD j 0) ≤ 199999999) ∧
    k (acc + ∑ j ∈ range n, ds.getD j 0 * ps.getD j 0 * (dev D0 D1 (ps.getD j 0) (qs.getD j 0) * dev D0 D1 (ps.getD j 0) (qs.getD j 0))) = true
  | [], ps, qs, acc, n, h1, h2, h3, h => by
    simp at h1
    subst h1
    simp [devs] at h ⊢
    exact h
  | d :: ds, [], qs, acc, n, h1, h2, h3, h => by simp at h1 h2; omega
  | d :: ds, p :: ps, [], acc, n, h1, h2, h3, h => by simp at h1 h3; omega
  | d :: ds, p :: ps, q :: qs, acc, n, h1, h2, h3, h => by
    obtain ⟨m, rfl⟩ : ∃ m, n = m + 1 := ⟨ds.length, by simpa using h1.symm⟩
    rw [devs, frc_eq, frc_eq, Bool.and_eq_true] at h
    obtain ⟨g1, g2⟩ := devs_spec D0 D1 k ds ps qs _ m (by simpa using h1) (by simpa using h2) (by simpa using h3) h.2
    refine ⟨fun j hj => ?_, ?_⟩
    · rcases j with _ | j
      · simpa using Nat.le_of_ble_eq_true h.1
      · simpa using g1 j (by omega)
    · rw [sum_range_succ', add_comm (∑ _ ∈ _, _), ← add_assoc]
      simpa using g2

/-- The observer and the black body at the `k`-th wavelength, as natural numbers. -/
def dN (k : ℕ) : ℕ := oD.getD k 0
def xN (k : ℕ) : ℕ := oX.getD k 0
def yN (k : ℕ) : ℕ := oY.getD k 0
def pN (i k : ℕ) : ℕ := val (tT.getD i 0) (edge (tT.getD i 0)) (360 + 5 * k)

/-- The weighted sum. -/
def sN (c : ℕ → ℕ) (i : ℕ) : ℕ := ∑ k ∈ range 95, c k * pN i k

def accN (i : ℕ) : ℕ := ∑ k ∈ range 95, dN k * pN i k * (dev (sN dN i) (sN dN (i + 1)) (pN i k) (pN (i + 1) k) *
  dev (sN dN i) (sN dN (i + 1)) (pN i k) (pN (i + 1) k))

theorem pN_def (i k : ℕ) : pN i k = val (tT.getD i 0) (edge (tT.getD i 0)) (360 + 5 * k) := rfl

theorem dN_def (k : ℕ) : dN k = oD.getD k 0 := rfl

theorem dot_vals {l : List ℕ} {c : ℕ → ℕ} (hl : l.length = 95) (hc : ∀ k, c k = l.getD k 0) (j : ℕ) :
    dot l (vlist (tT.getD j 0) (edge (tT.getD j 0)) 95 360) = sN c j := by
  rw [dot_eq _ _ 95 hl (vlist_length _ _ _ _), sN]
  refine sum_congr rfl fun k hk => ?_
  rw [vlist_getD (mem_range.1 hk), pN_def, hc]

theorem pair_spec {i : ℕ} (h : pairOk i = true) :
    coordOk (sN xN i) (sN dN i) (tU.getD i 0) = true ∧ coordOk (sN yN i) (sN dN i) (tV.getD i 0) = true ∧
    coordOk (sN xN (i + 1)) (sN dN (i + 1)) (tU.getD (i + 1) 0) = true ∧ coordOk (sN yN (i + 1)) (sN dN (i + 1)) (tV.getD (i + 1) 0) = true ∧
    (∀ k < 95, dev (sN dN i) (sN dN (i + 1)) (pN i k) (pN (i + 1) k) ≤ 199999999) ∧
    flat (accN i) (sN dN i) (tU.getD i 0) (tV.getD i 0) (tU.getD (i + 1) 0) (tV.getD (i + 1) 0) = true := by
  have lD : oD.length = 95 := by decide +kernel
  have lX : oX.length = 95 := by decide +kernel
  have lY : oY.length = 95 := by decide +kernel
  unfold pairOk at h
  simp only [frc_eq, vals_eq, Bool.and_eq_true, dot_vals lD dN_def, dot_vals (c := xN) lX (fun _ => rfl), dot_vals (c := yN) lY (fun _ => rfl)] at h
  obtain ⟨⟨⟨⟨h1, h2⟩, h3⟩, h4⟩, h5⟩ := h
  obtain ⟨g1, g2⟩ := devs_spec _ _ _ _ _ _ _ 95 lD (vlist_length _ _ _ _) (vlist_length _ _ _ _) h5
  refine ⟨h1, h2, h3, h4, fun k hk => ?_, ?_⟩
  · have := g1 k hk
    rw [vlist_getD hk, vlist_getD hk, ← pN_def, ← pN_def] at this
    exact this
  · rw [zero_add, sum_congr rfl (g := fun k => dN k * pN i k * (dev (sN dN i) (sN dN (i + 1)) (pN i k) (pN (i + 1) k) *
      dev (sN dN i) (sN dN (i + 1)) (pN i k) (pN (i + 1) k))) (fun k hk => by
        rw [vlist_getD (mem_range.1 hk), vlist_getD (mem_range.1 hk), ← pN_def, ← pN_def, ← dN_def]), ← accN] at g2
    exact g2

theorem sum_close {n : ℕ} {c P q : ℕ → ℝ} {S ε : ℝ} (hc : ∀ k < n, 0 ≤ c k) (h : ∀ k < n, |P k - S * q k| ≤ ε * (S * q k)) :
    |∑ k ∈ range n, c k * P k - S * ∑ k ∈ range n, c k * q k| ≤ ε * (S * ∑ k ∈ range n, c k * q k) := by
  have e1 : ∑ k ∈ range n, c k * P k - S * ∑ k ∈ range n, c k * q k = ∑ k ∈ range n, c k * (P k - S * q k) := by
    rw [mul_sum, ← sum_sub_distrib]
    exact sum_congr rfl fun k _ => by ring
  have e2 : ε * (S * ∑ k ∈ range n, c k * q k) = ∑ k ∈ range n, c k * (ε * (S * q k)) := by
    rw [mul_sum, mul_sum]
    exact sum_congr rfl fun k _ => by ring
  rw [e1, e2]
  refine (abs_sum_le_sum_abs _ _).trans (sum_le_sum fun k hk => ?_)
  rw [abs_mul, abs_of_nonneg (hc k (mem_range.1 hk))]
  exact mul_le_mul_of_nonneg_left (h k (mem_range.1 hk)) (hc k (mem_range.1 hk))

theorem coord_close {X D S : ℝ} {X' D' c : ℕ} (hS : 0 < S) (hD : 0 < D) (hX : |(X' : ℝ) - S * X| ≤ 1e-10 * (S * X))
    (hD' : |(D' : ℝ) - S * D| ≤ 1e-10 * (S * D)) (hX0 : 0 ≤ X) (hc : c ≤ 100000000) (h : coordOk X' D' c = true) :
    |X / D - c / 100000000| ≤ 1.1e-8 := by
  unfold coordOk at h
  rw [Bool.and_eq_true] at h
  have h1 : ((X' * 100000000 : ℕ) : ℝ) ≤ ((c * D' + D' : ℕ) : ℝ) := by exact_mod_cast Nat.le_of_ble_eq_true h.1
  have h2 : ((c * D' : ℕ) : ℝ) ≤ ((X' * 100000000 + D' : ℕ) : ℝ) := by exact_mod_cast Nat.le_of_ble_eq_true h.2
  push_cast at h1 h2
  have c0 : (0 : ℝ) ≤ c := Nat.cast_nonneg c
  have c1 : (c : ℝ) ≤ 100000000 := by exact_mod_cast hc
  rw [abs_le] at hX hD'
  obtain ⟨a, ha⟩ : ∃ a, S * X = a := ⟨_, rfl⟩
  obtain ⟨d, hd⟩ : ∃ d, S * D = d := ⟨_, rfl⟩
  have d0 : 0 < d := by rw [← hd]; positivity
  have a0 : 0 ≤ a := by rw [← ha]; positivity
  have e : X / D = a / d := by rw [← ha, ← hd]; field_simp
  rw [ha] at hX
  rw [hd] at hD'
  rw [e]
  generalize (X' : ℝ) = x at *
  generalize (D' : ℝ) = y at *
  generalize (c : ℝ) = c at *
  have u1 : a * 100000000 ≤ (c + 1.1) * d := by
    have : x * 100000000 ≤ (c + 1) * (d * (1 + 1e-10)) := by
      have := mul_le_mul_of_nonneg_left (show y ≤ d * (1 + 1e-10) by linarith [hD'.2]) (by linarith : 0 ≤ c + 1)
      linarith
    have g : (c + 1) * (1 + 1e-10) ≤ (c + 1.1) * (1 - 1e-10) := by norm_num; linarith
    have g2 := mul_le_mul_of_nonneg_right g d0.le
    have : a * (1 - 1e-10) ≤ x := by linarith [hX.1]
    have : (a * 100000000) * (1 - 1e-10) ≤ ((c + 1.1) * d) * (1 - 1e-10) := by linarith
    exact le_of_mul_le_mul_right this (by norm_num)
  have u2 : (c - 1.1) * d ≤ a * 100000000 := by
    rcases le_total c 1 with hc1 | hc1
    · have : (c - 1.1) * d ≤ 0 := mul_nonpos_of_nonpos_of_nonneg (by norm_num; linarith) d0.le
      linarith [mul_nonneg a0 (by norm_num : (0 : ℝ) ≤ 100000000)]
    · have : (c - 1) * (d * (1 - 1e-10)) ≤ x * 100000000 := by
        have := mul_le_mul_of_nonneg_left (show d * (1 - 1e-10) ≤ y by linarith [hD'.1]) (by linarith : 0 ≤ c - 1)
        linarith
      have g : (c - 1.1) * (1 + 1e-10) ≤ (c - 1) * (1 - 1e-10) := by norm_num; linarith
      have g2 := mul_le_mul_of_nonneg_right g d0.le
      have : x ≤ a * (1 + 1e-10) := by linarith [hX.2]
      have : ((c - 1.1) * d) * (1 + 1e-10) ≤ (a * 100000000) * (1 + 1e-10) := by linarith
      exact le_of_mul_le_mul_right this (by norm_num)
  rw [abs_le]
  constructor
  · have : (c - 1.1) / 100000000 ≤ a / d := by rw [div_le_div_iff₀ (by norm_num) d0]; exact u2
    norm_num at this ⊢
    linarith
  · have : a / d ≤ (c + 1.1) / 100000000 := by rw [div_le_div_iff₀ d0 (by norm_num)]; exact u1
    norm_num at this ⊢
    linarith

theorem dev_close {D0 D1 p0 p1 : ℕ} {G0 G1 q0 q1 S0 S1 : ℝ} (hS0 : 0 < S0) (hS1 : 0 < S1) (hG0 : 0 < G0) (hG1 : 0 < G1) (hq0 : 0 < q0) (hq1 : 0 < q1)
    (a1 : |(D0 : ℝ) - S0 * G0| ≤ 1e-10 * (S0 * G0)) (a2 : |(D1 : ℝ) - S1 * G1| ≤ 1e-10 * (S1 * G1))
    (a3 : |(p0 : ℝ) - S0 * q0| ≤ 1e-10 * (S0 * q0)) (a4 : |(p1 : ℝ) - S1 * q1| ≤ 1e-10 * (S1 * q1)) (hb : dev D0 D1 p0 p1 ≤ 199999999) :
    |q1 / G1 / (q0 / G0) - 1| ≤ dev D0 D1 p0 p1 * 1e-9 := by
  obtain ⟨b, hbe⟩ : ∃ b, dev D0 D1 p0 p1 = b := ⟨_, rfl⟩
  have hb' : (b : ℝ) ≤ 199999999 := by rw [hbe] at hb; exact_mod_cast hb
  rw [hbe]
  have pos : ∀ {x y : ℝ}, 0 < x → |y - x| ≤ 1e-10 * x → 0 < y := fun {x y} hx h => by
    have := (abs_le.1 h).1
    norm_num at this
    linarith
  have P0 : (0 : ℝ) < p0 := pos (by positivity) a3
  have E1 : (0 : ℝ) < D1 := pos (by positivity) a2
  have den : 0 < p0 * D1 := by
    have h1 : 0 < p0 := by exact_mod_cast P0
    have h2 : 0 < D1 := by exact_mod_cast E1
    positivity
  have denr : (0 : ℝ) < p0 * D1 := by positivity
  -- the rounded deviation
  have hdev : |(p1 : ℝ) * D0 - p0 * D1| * 1000000000 ≤ (b - 1) * (p0 * D1) := by
    unfold dev at hbe
    obtain ⟨-, w⟩ := div_close (((p1 * D0 - p0 * D1) + (p0 * D1 - p1 * D0)) * 1000000000) (p0 * D1) den
    have hn : ((((p1 * D0 - p0 * D1) + (p0 * D1 - p1 * D0)) * 1000000000 / (p0 * D1) : ℕ) : ℝ) = b - 2 := by
      rw [← hbe]; push_cast; ring
    rw [hn, div_lt_iff₀ (by exact_mod_cast den)] at w
    have habs : (((p1 * D0 - p0 * D1) + (p0 * D1 - p1 * D0) : ℕ) : ℝ) = |(p1 : ℝ) * D0 - p0 * D1| := by
      rcases le_total (p1 * D0) (p0 * D1) with hle | hle
      · rw [Nat.sub_eq_zero_of_le hle, zero_add, Nat.cast_sub hle, abs_of_nonpos]
        · push_cast; ring
        · have : ((p1 * D0 : ℕ) : ℝ) ≤ ((p0 * D1 : ℕ) : ℝ) := by exact_mod_cast hle
          push_cast at this
          linarith
      · rw [Nat.sub_eq_zero_of_le hle, add_zero, Nat.cast_sub hle, abs_of_nonneg]
        · push_cast; ring
        · have : ((p0 * D1 : ℕ) : ℝ) ≤ ((p1 * D0 : ℕ) : ℝ) := by exact_mod_cast hle
          push_cast at this
          linarith
    rw [Nat.cast_mul, habs] at w
    push_cast at w
    linarith
  -- the products
  rw [abs_le] at a1 a2 a3 a4
  obtain ⟨A, hA⟩ : ∃ A, S1 * q1 * (S0 * G0) = A := ⟨_, rfl⟩
  obtain ⟨C, hC⟩ : ∃ C, S0 * q0 * (S1 * G1) = C := ⟨_, rfl⟩
  have C0 : 0 < C := by rw [← hC]; positivity
  have A0 : 0 < A := by rw [← hA]; positivity
  have e : q1 / G1 / (q0 / G0) = A / C := by rw [← hA, ← hC]; field_simp
  have k1 : (p1 : ℝ) * D0 ≤ A * (1 + 2.1e-10) := by
    have := mul_le_mul (show (p1 : ℝ) ≤ S1 * q1 * (1 + 1e-10) by linarith [a4.2]) (show (D0 : ℝ) ≤ S0 * G0 * (1 + 1e-10) by linarith [a1.2])
      (Nat.cast_nonneg _) (by positivity)
    refine this.trans (le_of_eq_of_le (b := A * (1 + 1e-10) ^ 2) (by rw [← hA]; ring) ?_)
    refine mul_le_mul_of_nonneg_left (by norm_num) A0.le
  have k2 : A * (1 - 2.1e-10) ≤ (p1 : ℝ) * D0 := by
    have := mul_le_mul (show S1 * q1 * (1 - 1e-10) ≤ (p1 : ℝ) by linarith [a4.1]) (show S0 * G0 * (1 - 1e-10) ≤ (D0 : ℝ) by linarith [a1.1])
      (mul_nonneg (by positivity) (by norm_num)) (Nat.cast_nonneg _)
    refine le_trans (le_of_le_of_eq (b := A * (1 - 1e-10) ^ 2) ?_ (by rw [← hA]; ring)) this
    refine mul_le_mul_of_nonneg_left (by norm_num) A0.le
  have k3 : (p0 : ℝ) * D1 ≤ C * (1 + 2.1e-10) := by
    have := mul_le_mul (show (p0 : ℝ) ≤ S0 * q0 * (1 + 1e-10) by linarith [a3.2]) (show (D1 : ℝ) ≤ S1 * G1 * (1 + 1e-10) by linarith [a2.2])
      (Nat.cast_nonneg _) (by positivity)
    refine this.trans (le_of_eq_of_le (b := C * (1 + 1e-10) ^ 2) (by rw [← hC]; ring) ?_)
    refine mul_le_mul_of_nonneg_left (by norm_num) C0.le
  have k4 : C * (1 - 2.1e-10) ≤ (p0 : ℝ) * D1 := by
    have := mul_le_mul (show S0 * q0 * (1 - 1e-10) ≤ (p0 : ℝ) by linarith [a3.1]) (show S1 * G1 * (1 - 1e-10) ≤ (D1 : ℝ) by linarith [a2.1])
      (mul_nonneg (by positivity) (by norm_num)) (Nat.cast_nonneg _)
    refine le_trans (le_of_le_of_eq (b := C * (1 - 1e-10) ^ 2) ?_ (by rw [← hC]; ring)) this
    refine mul_le_mul_of_nonneg_left (by norm_num) C0.le
  have b1 : (1 : ℝ) ≤ b := by
    have : 2 ≤ b := by
      rw [← hbe, dev]
      generalize ((p1 * D0 - p0 * D1) + (p0 * D1 - p1 * D0)) * 1000000000 / (p0 * D1) = z
      omega
    have : (2 : ℝ) ≤ b := by exact_mod_cast this
    linarith
  rw [e]
  obtain ⟨β, hβ⟩ : ∃ β : ℝ, (b : ℝ) * 1e-9 = β := ⟨_, rfl⟩
  have β1 : β ≤ 0.2 := by rw [← hβ]; linarith
  have β0 : 1e-9 ≤ β := by rw [← hβ]; linarith
  have hd2 : |(p1 : ℝ) * D0 - p0 * D1| ≤ (β - 1e-9) * (p0 * D1) := by
    have : (β - 1e-9) * (p0 * D1) = ((b : ℝ) - 1) * (p0 * D1) / 1000000000 := by rw [← hβ]; norm_num; ring
    rw [this, le_div_iff₀ (by norm_num)]
    exact hdev
  rw [hβ]
  have hd3 := abs_le.1 hd2
  rw [abs_le]
  generalize (p1 : ℝ) * D0 = N at *
  generalize (p0 : ℝ) * D1 = M at *
  constructor
  · rw [neg_le_sub_iff_le_add, ← sub_le_iff_le_add, le_div_iff₀ C0]
    have : (1 - (β - 1e-9)) * M ≤ A * (1 + 2.1e-10) := by linarith [hd3.1]
    have h2 : (1 - (β - 1e-9)) * (C * (1 - 2.1e-10)) ≤ (1 - (β - 1e-9)) * M := mul_le_mul_of_nonneg_left k4 (by norm_num at *; linarith)
    have h3 : (1 - β) * (1 + 2.1e-10) ≤ (1 - (β - 1e-9)) * (1 - 2.1e-10) := by norm_num at *; linarith
    have h4 := mul_le_mul_of_nonneg_right h3 C0.le
    have : (1 - β) * C * (1 + 2.1e-10) ≤ A * (1 + 2.1e-10) := by linarith
    exact le_of_mul_le_mul_right this (by norm_num)
  · rw [sub_le_iff_le_add, div_le_iff₀ C0]
    have : A * (1 - 2.1e-10) ≤ (1 + (β - 1e-9)) * M := by linarith [hd3.2]
    have h2 : (1 + (β - 1e-9)) * M ≤ (1 + (β - 1e-9)) * (C * (1 + 2.1e-10)) := mul_le_mul_of_nonneg_left k3 (by norm_num at *; linarith)
    have h3 : (1 + (β - 1e-9)) * (1 + 2.1e-10) ≤ (β + 1) * (1 - 2.1e-10) := by norm_num at *; linarith
    have h4 := mul_le_mul_of_nonneg_right h3 C0.le
    have : A * (1 - 2.1e-10) ≤ (β + 1) * C * (1 - 2.1e-10) := by linarith
    exact le_of_mul_le_mul_right this (by norm_num)

end Verif.LT
